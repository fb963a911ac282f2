import Verif.Process.Lemmas
/-
Invariants of the maintenance machine.
-/
set_option autoImplicit false
namespace Veri
namespace Proc
open Gencoder Store

/-! ### Planning -/

theorem diffFor_le (P : PEnv) (loc info : DataInfo) : (diffFor P loc info).toNat ≤ 1000 := by
  have h1 : (1 : UInt64).toNat = 1 := rfl
  have h0 : (0 : UInt64).toNat = 0 := rfl
  have h2 : (1000 : UInt64).toNat = 1000 := rfl
  unfold diffFor
  simp only
  repeat' split
  all_goals first
    | omega
    | (rename_i h; have := UInt64.lt_iff_toNat_lt.1 h; omega)

theorem diffFor_pos (P : PEnv) (loc info : DataInfo) (h : closeStats P loc info = false) :
    1 ≤ (diffFor P loc info).toNat := by
  have h1 : (1 : UInt64).toNat = 1 := rfl
  have h2 : (1000 : UInt64).toNat = 1000 := rfl
  have h3 : ((loc.n - info.n) / 2 + 1).toNat = (loc.n - info.n).toNat / 2 + 1 := by
    have := (loc.n - info.n).toNat_lt
    rw [UInt64.toNat_add, UInt64.toNat_div]
    have h22 : (2 : UInt64).toNat = 2 := rfl
    rw [h22, h1]
    omega
  unfold diffFor
  simp only [h, Bool.false_eq_true, if_false]
  repeat' split
  all_goals omega

/-- What a plan looks like after some sources have been asked. -/
structure PlanInv (k : Nat) (t : AMap SourceId UInt64 × UInt64) : Prop where
  len : t.1.length ≤ k
  le : ∀ p ∈ t.1, p.2.toNat ≤ 1000
  sum : t.2.toNat ≤ 1000 * k

theorem erase_length_le {κ α : Type} [DecidableEq κ] (m : AMap κ α) (k : κ) : (m.erase k).length ≤ m.length := by
  induction m with
  | nil => exact Nat.le_refl _
  | cons q m ih =>
    obtain ⟨k', v⟩ := q
    simp only [AMap.erase]
    split
    · simp only [List.length_cons]; omega
    · simp only [List.length_cons]; omega

theorem plan_inv (P : PEnv) (infos : SourceId → Option DataInfo) (loc : DataInfo) : ∀ (order : List SourceId)
    (fuel k : Nat) (t : AMap SourceId UInt64 × UInt64), k + fuel ≤ 6 → PlanInv k t →
    PlanInv (k + fuel) (Data.runOnSources (planSource P infos loc) ((fuel : Int) - 1) order t).1 := by
  intro order
  induction order with
  | nil =>
    intro fuel k t hk h
    exact ⟨by have := h.len; simp only [Data.runOnSources]; omega, h.le,
      by have := h.sum; simp only [Data.runOnSources]; omega⟩
  | cons id ids ih =>
    intro fuel k t hk h
    simp only [Data.runOnSources]
    split
    · exact ⟨by have := h.len; simp only; omega, h.le, by have := h.sum; simp only; omega⟩
    · rename_i hf
      obtain ⟨f', rfl⟩ : ∃ f', fuel = f' + 1 := ⟨fuel - 1, by omega⟩
      have hi : ((f' + 1 : Nat) : Int) - 1 - 1 = (f' : Int) - 1 := by omega
      rw [hi]
      cases hinfo : infos id with
      | none =>
        simp only [planSource, hinfo]
        have := ih f' k t (by omega) h
        exact ⟨by have := this.len; omega, this.le, by have := this.sum; omega⟩
      | some info =>
        simp only [planSource, hinfo]
        have hd := diffFor_le P loc info
        have := ih f' (k + 1) (t.1.set id (diffFor P loc info), t.2 + diffFor P loc info) (by omega)
          ⟨by have := h.len; have := erase_length_le t.1 id; simp only [AMap.set, List.length_cons]; omega,
           by
            intro p hp
            rcases (AMap.mem_set _ _ _ _).1 hp with rfl | ⟨hp, _⟩
            · exact hd
            · exact h.le p hp,
           by
            have := h.sum
            simp only [UInt64.toNat_add]
            omega⟩
        rw [show k + (f' + 1) = k + 1 + f' by omega]
        exact this

theorem plan_bounds (P : PEnv) (infos : SourceId → Option DataInfo) (order : List SourceId) (loc : DataInfo) :
    PlanInv 6 (dataSourceDiffMap P infos order loc) :=
  plan_inv P infos loc order 6 0 ([], 0) (by omega) ⟨Nat.le_refl _, by simp, Nat.le_refl _⟩

/-! ### Invariants whatever clients do -/

/-- The frame of an insert. -/
theorem insert_frame {now : Int64} {dt : Data} {datum : Datum} {config : Option InsertConfig} {out : Data.InsertOut Unit}
    (h : Data.insert now [] (fun _ _ _ w => (w, none)) dt () (some datum) config = .ok out) :
    out.data = dt ∨ ∃ m r, out.data = { dt.initData with dbMap := m, recentInsertCount := r, dirty := true } := by
  rcases Data.insert_cases _ _ _ _ _ _ _ _ h with ⟨_, rfl⟩ | ⟨_, _, _, m, b, _, _, _, hd, _⟩
  · exact .inl rfl
  · exact .inr ⟨m, _, hd⟩

theorem delete_frame {dt dt' : Data} {datum : Datum} (h : Data.delete dt (some datum) = .ok dt') :
    ∃ m, dt' = { dt with dbMap := m } := by
  unfold Data.delete at h
  cases hd : deleteBDMap dt.dbMap (some datum) with
  | panic => rw [hd] at h; cases h
  | err e => rw [hd] at h; cases h
  | ok m => rw [hd] at h; cases h; exact ⟨m, rfl⟩

/-- An open data set stays initialised, and once closed it stays closed. -/
theorem istep_alive {P : PEnv} {W : Bool} {now : Int64} {dt dt' : Data} {acks acks' : List Ack} {i i' : Inst} {a : Act}
    (h : IStep P W now dt acks i a dt' acks' i') :
    dt'.alive = dt.alive ∧ dt'.initialized = dt.initialized ∧ dt'.config = dt.config ∧ dt'.sources = dt.sources := by
  cases h <;> exact ⟨rfl, rfl, rfl, rfl⟩

theorem sstep_alive {P : PEnv} {W : Bool} {s s' : PS} {l : Label} (h : SStep P W s l s') (hi : s.dt.initialized = true) :
    s'.dt.initialized = true ∧ (s'.dt.alive = true → s.dt.alive = true) ∧ s'.dt.config = s.dt.config := by
  have hid := Data.initData_of_initialized hi
  cases h with
  | tick => exact ⟨hi, id, rfl⟩
  | setSources => rw [hid]; exact ⟨hi, id, rfl⟩
  | runOff => exact ⟨hi, id, rfl⟩
  | run => exact ⟨hi, id, rfl⟩
  | closeBegin _ => exact ⟨hi, fun h => absurd (show false = true from h) (by decide), rfl⟩
  | closeDone => exact ⟨hi, id, rfl⟩
  | closeRun => exact ⟨hi, id, rfl⟩
  | closeReturn => exact ⟨hi, id, rfl⟩
  | act _ hs =>
    obtain ⟨h1, h2, h3, _⟩ := istep_alive hs
    exact ⟨by rw [h2]; exact hi, by rw [h1]; exact id, h3⟩
  | write _ ho =>
    rcases insert_frame ho with h | ⟨m, r, h⟩
    · rw [h]; exact ⟨hi, id, rfl⟩
    · rw [h, hid]; exact ⟨hi, id, rfl⟩
  | delete _ ho =>
    obtain ⟨m, rfl⟩ := delete_frame ho
    exact ⟨hi, id, rfl⟩

/-- Facts about one run, whatever clients do. -/
structure Basic (P : PEnv) (alive : Bool) (i : Inst) : Prop where
  n : i.stats.n = UInt64.ofNat i.met.length
  slots : ∀ p ∈ i.slots, ∃ e ∈ i.met, e.datum = p.2
  limit : i.limit.toNat ≤ 6000
  dmLen : i.diffMap.length ≤ 6
  dmLe : ∀ p ∈ i.diffMap, p.2.toNat ≤ 1000
  target : i.localInfo.noTarget = i.config.noTarget ∧ i.localInfo.targetN = i.config.targetN ∧
    i.localInfo.targetUtilization = i.config.targetUtilization
  budget : alive = true → i.counter.toNat ≤ i.limit.toNat ∧ i.sent.length = i.counter.toNat ∧
    ∀ x, i.phase = .sending x → i.counter.toNat < i.limit.toNat
  none : i.consumer = none → i.evicted = []
  noTarget : alive = true → i.config.noTarget = true → i.evicted = []
  evicted : alive = true → P.mark i.config.targetN i.config.targetUtilization ≠ 0 → ∀ c, i.consumer = some c →
    i.evicted.length = c.deleted.toNat ∧
    (i.evicted = [] ∨ c.deleted.toNat + (P.mark i.config.targetN i.config.targetUtilization).toNat ≤ i.localInfo.n.toNat + 1)

theorem basic_mono {P : PEnv} {a b : Bool} {i : Inst} (h : Basic P a i) (hab : b = true → a = true) : Basic P b i :=
  { h with
    budget := fun hb => h.budget (hab hb)
    noTarget := fun hb => h.noTarget (hab hb)
    evicted := fun hb => h.evicted (hab hb) }

theorem basic_fresh {P : PEnv} {now : Int64} {dt : Data} {infos : SourceId → Option DataInfo} {order : List SourceId}
    {i : Inst} (h : Fresh P now dt infos order i) (a : Bool) : Basic P a i := by
  have hp := plan_bounds P infos order i.localInfo
  rw [h.plan] at hp
  refine ⟨?_, ?_, ?_, hp.len, hp.le, ?_, ?_, fun _ => h.evicted, fun _ _ => h.evicted, ?_⟩
  · rw [h.stats, h.met]; rfl
  · rw [h.slots]; simp
  · have := hp.sum; simp only at this; omega
  · have := h.info
    unfold Data.getDataInfo at this
    rw [h.config] at this
    simp only [Res.ok.injEq] at this
    rw [← this]
    exact ⟨rfl, rfl, rfl⟩
  · intro _
    rw [h.counter, h.sent, h.phase]
    refine ⟨Nat.zero_le _, rfl, fun x hx => by cases hx⟩
  · intro _ _ c hc
    rw [h.consumer] at hc
    rw [h.evicted]
    split at hc
    · cases hc; exact ⟨rfl, .inl rfl⟩
    · cases hc

theorem eviction_count {n mark deleted : UInt64} (hm : mark ≠ 0)
    (h : deleted = 0 ∨ deleted.toNat + mark.toNat ≤ n.toNat + 1) (he : n - deleted ≥ mark) :
    deleted.toNat + 1 + mark.toNat ≤ n.toNat + 1 := by
  have hm' : mark.toNat ≠ 0 := fun h => hm (UInt64.toNat_inj.1 h)
  have he' := UInt64.le_iff_toNat_le.1 he
  have hle : deleted.toNat ≤ n.toNat := by
    rcases h with rfl | h
    · exact Nat.zero_le _
    · omega
  rw [UInt64.toNat_sub_of_le _ _ (UInt64.le_iff_toNat_le.2 hle)] at he'
  omega

theorem basic_step {P : PEnv} {W : Bool} {now : Int64} {dt dt' : Data} {acks acks' : List Ack} {i i' : Inst} {a : Act}
    (h : IStep P W now dt acks i a dt' acks' i') (hb : Basic P dt.alive i) : Basic P dt.alive i' := by
  cases h with
  | purge hp _ _ _ =>
    exact { hb with budget := fun ha => ⟨(hb.budget ha).1, (hb.budget ha).2.1, (hb.budget ha).2.2⟩ }
  | @meet k e key hp _ _ _ _ =>
    refine { hb with n := ?_, slots := ?_, budget := ?_ }
    · show (Stats.meet P.o P.s dt.avg dt.maxDistance i.nFloat i.stats key.feature).n = _
      simp only [Stats.meet, meetEntry, hb.n, List.length_append, List.length_cons, List.length_nil]
      apply UInt64.toNat_inj.1
      simp
    · intro p hp
      simp only [meetEntry] at hp ⊢
      split at hp
      · rcases List.mem_cons.1 hp with rfl | hp
        · exact ⟨e, by simp, rfl⟩
        · obtain ⟨e', he', hd⟩ := hb.slots p hp
          exact ⟨e', by simp [he'], hd⟩
      · obtain ⟨e', he', hd⟩ := hb.slots p hp
        exact ⟨e', by simp [he'], hd⟩
    · intro ha
      exact ⟨(hb.budget ha).1, (hb.budget ha).2.1, fun x hx => by cases hx⟩
  | offer hp _ _ hw _ =>
    refine { hb with budget := ?_ }
    intro ha
    refine ⟨(hb.budget ha).1, (hb.budget ha).2.1, fun x hx => ?_⟩
    rcases hw with hw | hw
    · rw [ha] at hw; cases hw
    · exact UInt64.lt_iff_toNat_lt.1 hw.1
  | skip hp _ _ _ =>
    refine { hb with budget := ?_ }
    intro ha
    exact ⟨(hb.budget ha).1, (hb.budget ha).2.1, fun x hx => by cases hx⟩
  | @send x hp _ =>
    refine { hb with budget := ?_ }
    intro ha
    obtain ⟨h1, h2, h3⟩ := hb.budget ha
    have h4 := h3 x hp
    have h5 : (i.counter + 1).toNat = i.counter.toNat + 1 := by
      have := hb.limit
      rw [UInt64.toNat_add]
      have h11 : (1 : UInt64).toNat = 1 := rfl
      rw [h11]; omega
    refine ⟨by simp only [h5]; omega, by simp only [h5, List.length_append, h2]; rfl, fun x hx => by cases hx⟩
  | @handover x c order hp hc hl _ _ =>
    refine { hb with budget := ?_, none := (fun h => by cases h), evicted := ?_ }
    · intro ha
      have h3 := (hb.budget ha).2.2 x hp
      have h4 : i.limit.toNat = 0 := by rw [hl]; rfl
      exact absurd h3 (by omega)
    · intro ha hm c' hc'
      cases hc'
      exact hb.evicted ha hm c hc
  | endScan hp _ =>
    refine { hb with budget := ?_ }
    intro ha
    exact ⟨(hb.budget ha).1, (hb.budget ha).2.1, fun x hx => by cases hx⟩
  | @recv x xs c order hc _ _ _ =>
    refine { hb with none := (fun h => by cases h), evicted := ?_ }
    intro ha hm c' hc'
    cases hc'
    exact hb.evicted ha hm c hc
  | @evict c x id count rest k hc hcur _ _ hev hk =>
    refine { hb with none := (fun h => by cases h), noTarget := ?_, evicted := ?_ }
    · intro ha hn
      rcases hev with hev | hev
      · rw [ha] at hev; cases hev
      · unfold isEvictionOn at hev
        rw [hn] at hev
        simp at hev
    · intro ha hm c' hc'
      cases hc'
      rcases hev with hev | hev
      · rw [ha] at hev; cases hev
      · unfold isEvictionOn at hev
        simp only [Bool.and_eq_true, decide_eq_true_eq] at hev
        rw [hb.target.2.1] at hev
        replace hm : P.mark i.config.targetN i.config.targetUtilization ≠ 0 := hm
        obtain ⟨h1, h2⟩ := hb.evicted ha hm c hc
        have h3 := eviction_count hm (h2.imp (fun h => UInt64.toNat_inj.1 (by rw [← h1, h]; rfl)) (fun h => h)) hev.2
        have h4 := i.localInfo.n.toNat_lt
        have hm' : (P.mark i.config.targetN i.config.targetUtilization).toNat ≠ 0 := fun h => hm (UInt64.toNat_inj.1 h)
        have h5 : (c.deleted + 1).toNat = c.deleted.toNat + 1 := by
          rw [UInt64.toNat_add]
          have h11 : (1 : UInt64).toNat = 1 := rfl
          rw [h11]; omega
        refine ⟨by simp only [h5, List.length_append, h1]; rfl, .inr (by simp only [h5]; omega)⟩
  | @copy c x id count rest hc _ _ _ _ _ =>
    refine { hb with none := (fun h => by cases h), evicted := ?_ }
    intro ha hm c' hc'
    cases hc'
    exact hb.evicted ha hm c hc
  | @pass c x id count rest acc hc _ =>
    refine { hb with none := (fun h => by cases h), evicted := ?_ }
    intro ha hm c' hc'
    cases hc'
    exact hb.evicted ha hm c hc
  | @next c x hc _ =>
    refine { hb with none := (fun h => by cases h), evicted := ?_ }
    intro ha hm c' hc'
    cases hc'
    exact hb.evicted ha hm c hc

/-- `Basic` holds of every run, in every execution from an initialised data set. -/
theorem basic_reach {P : PEnv} {W : Bool} {dt : Data} {now : Int64} (hi : dt.initialized = true) {s : PS}
    (h : Reach P W (initial dt now) s) : s.dt.initialized = true ∧ s.dt.config = dt.config ∧ ∀ i ∈ s.insts, Basic P s.dt.alive i := by
  refine reach_inv (fun s => s.dt.initialized = true ∧ s.dt.config = dt.config ∧ ∀ i ∈ s.insts, Basic P s.dt.alive i) ?_ ?_ h
  · exact ⟨hi, rfl, by simp [initial]⟩
  · rintro s s' l _ ⟨hini, hcf, hb⟩ hs
    obtain ⟨h1, h2, h3⟩ := sstep_alive hs hini
    refine ⟨h1, h3.trans hcf, ?_⟩
    have hmono : ∀ i ∈ s.insts, Basic P s'.dt.alive i := fun i hi => basic_mono (hb i hi) h2
    cases hs with
    | run _ hf =>
      intro i hi
      rcases List.mem_append.1 hi with hi | hi
      · exact hmono i hi
      · rw [List.mem_singleton.1 hi]; exact basic_fresh hf _
    | closeRun _ _ _ hf =>
      intro i hi
      rcases List.mem_append.1 hi with hi | hi
      · exact hmono i hi
      · rw [List.mem_singleton.1 hi]; exact basic_fresh hf _
    | act hj hst =>
      intro i hi
      rcases mem_set_list hi with rfl | hi
      · have := basic_step hst (hb _ (List.mem_of_getElem? hj))
        exact basic_mono this h2
      · exact hmono i hi
    | _ => exact hmono

/-- Every run works with the configuration of the data set. -/
theorem config_reach {P : PEnv} {W : Bool} {dt : Data} {now : Int64} (hi : dt.initialized = true) {s : PS}
    (h : Reach P W (initial dt now) s) : ∀ i ∈ s.insts, dt.config = some i.config := by
  refine reach_inv (fun s => ∀ i ∈ s.insts, dt.config = some i.config) (by simp [initial]) ?_ h
  intro s s' l hr ih hs
  have hc := (basic_reach hi hr).2.1
  cases hs with
  | run _ hf =>
    intro i hi
    rcases List.mem_append.1 hi with hi | hi
    · exact ih i hi
    · rw [List.mem_singleton.1 hi, ← hc]; exact hf.config
  | closeRun _ _ _ hf =>
    intro i hi
    rcases List.mem_append.1 hi with hi | hi
    · exact ih i hi
    · rw [List.mem_singleton.1 hi, ← hc]; exact hf.config
  | act hj hst =>
    intro i hi
    rcases mem_set_list hi with rfl | hi
    · have := ih _ (List.mem_of_getElem? hj)
      cases hst <;> exact this
    · exact ih i hi
  | _ => exact ih

/-! ### Invariants of maintenance when nobody else writes -/

theorem le_i64_trans {a b c : Int64} (h : a ≤ b) (g : b ≤ c) : a ≤ c := by
  rw [Int64.le_iff_toInt_le] at *
  omega

theorem isExpired_mono {e : Entry} {a b : Int64} (h : a ≤ b) (he : isExpired e a = true) : isExpired e b = true := by
  simp only [isExpired, Bool.and_eq_true, decide_eq_true_eq] at *
  exact ⟨he.1, le_i64_trans he.2 h⟩

theorem isExpired_anti {e : Entry} {a b : Int64} (h : a ≤ b) (he : isExpired e b = false) : isExpired e a = false := by
  cases ha : isExpired e a with
  | false => rfl
  | true => rw [isExpired_mono h ha] at he; cases he

/-- A queued copy was made of an entry of the map. -/
def Origin (m0 : DBMap) (now : Int64) (x : Item) : Prop :=
  ∃ k e t, m0.get? k = some e ∧ e.datum = x.datum ∧ t ≤ now ∧
    x.config = insertConfigFromExpireAt t.toUInt64 e.expireAt.toUInt64 ∧ x.config.ttl > 10

theorem Origin.mono {m0 : DBMap} {a b : Int64} {x : Item} (h : Origin m0 a x) (hab : a ≤ b) : Origin m0 b x := by
  obtain ⟨k, e, t, h1, h2, h3, h4⟩ := h
  exact ⟨k, e, t, h1, h2, le_i64_trans h3 hab, h4⟩

/-- One run on a map that nobody else writes; `m` is the map now, `m0` the map at the beginning. -/
structure InstInv (m0 : DBMap) (m : DBMap) (now : Int64) (i : Inst) : Prop where
  began : i.began ≤ now
  met : ∀ e, i.phase = .met e → ∃ k, m0.get? k = some e
  sending : ∀ x, i.phase = .sending x → Origin m0 now x
  chan : ∀ x ∈ i.chan, Origin m0 now x
  cur : ∀ c x r, i.consumer = some c → c.cur = some (x, r) → Origin m0 now x
  metLive : ∀ e ∈ i.met, (∃ k, m0.get? k = some e ∧ k ∈ i.seen) ∧ isExpired e i.began = false
  nodup : i.met.Nodup
  seen : ∀ k ∈ i.seen, m.get? k = none ∨ ∃ e ∈ i.met, m0.get? k = some e

/-- The whole state. -/
structure MapInv (m0 : DBMap) (s : PS) : Prop where
  wf : WF0 s.dt.dbMap
  sub : ∀ k e, s.dt.dbMap.get? k = some e → m0.get? k = some e
  kept : ∀ k e, m0.get? k = some e →
    s.dt.dbMap.get? k = some e ∨ isExpired e s.now = true ∨ ∃ a ∈ s.acks, a.item.datum = e.datum
  inst : ∀ i ∈ s.insts, InstInv m0 s.dt.dbMap s.now i

theorem InstInv.mono {m0 m m' : DBMap} {now now' : Int64} {i : Inst} (h : InstInv m0 m now i) (hn : now ≤ now')
    (hm : ∀ k, m.get? k = none → m'.get? k = none) : InstInv m0 m' now' i :=
  { began := le_i64_trans h.began hn
    met := h.met
    sending := fun x hx => (h.sending x hx).mono hn
    chan := fun x hx => (h.chan x hx).mono hn
    cur := fun c x r hc hx => (h.cur c x r hc hx).mono hn
    metLive := h.metLive
    nodup := h.nodup
    seen := fun k hk => (h.seen k hk).imp (hm k) id }

theorem le_i64_refl (a : Int64) : a ≤ a := by rw [Int64.le_iff_toInt_le]; omega

theorem instInv_fresh {P : PEnv} {now : Int64} {dt : Data} {infos : SourceId → Option DataInfo} {order : List SourceId}
    {i : Inst} (h : Fresh P now dt infos order i) (m0 m : DBMap) : InstInv m0 m now i := by
  refine ⟨by rw [h.began]; exact le_i64_refl _, ?_, ?_, ?_, ?_, ?_, ?_, ?_⟩
  · intro e he; rw [h.phase] at he; cases he
  · intro e he; rw [h.phase] at he; cases he
  · rw [h.chan]; simp
  · intro c x r hc hx
    rw [h.consumer] at hc
    split at hc
    · cases hc; cases hx
    · cases hc
  · rw [h.met]; simp
  · rw [h.met]; exact List.nodup_nil
  · rw [h.seen]; simp

theorem erase_none (m : DBMap) (b k : Bytes) (h : m.get? k = none) : (m.erase b).get? k = none := by
  rw [AMap.get?_erase]
  split
  · rfl
  · exact h

theorem key_of_get? {m : DBMap} (h : WF0 m) {k : Bytes} {e : Entry} (he : m.get? k = some e) :
    ∃ key, e.datum.key = some key ∧ k = encKey key ∧ getKeyAsBytes e.datum = some k := by
  obtain ⟨key, h1, h2⟩ := h.keyed k e (AMap.mem_of_get? he)
  refine ⟨key, h1, h2, ?_⟩
  obtain ⟨x, kk, v⟩ := e
  simp only at h1
  subst h1
  rw [h2]
  exact getKeyAsBytes_some key v

theorem get?_inj {m : DBMap} (h : WF0 m) {k k' : Bytes} {e : Entry} (h1 : m.get? k = some e) (h2 : m.get? k' = some e) :
    k = k' := by
  obtain ⟨key, a1, a2, _⟩ := key_of_get? h h1
  obtain ⟨key', b1, b2, _⟩ := key_of_get? h h2
  rw [a1] at b1
  cases b1
  rw [a2, b2]

/-- What a step of a run does to a map that nobody else writes. -/
theorem istep_map {P : PEnv} {W : Bool} {now : Int64} {dt dt' : Data} {acks acks' : List Ack} {i i' : Inst} {a : Act}
    {m0 : DBMap} (h : IStep P W now dt acks i a dt' acks' i') (hm0 : WF0 m0)
    (hsub : ∀ k e, dt.dbMap.get? k = some e → m0.get? k = some e) (hi : InstInv m0 dt.dbMap now i) :
    InstInv m0 dt'.dbMap now i' ∧
    (dt'.dbMap = dt.dbMap ∧ (acks' = acks ∨ ∃ a, acks' = acks ++ [a]) ∨
     (∃ k e, dt.dbMap.get? k = some e ∧ isExpired e now = true ∧ dt'.dbMap = dt.dbMap.erase k ∧ acks' = acks) ∨
     (∃ k x id e, a = .contact true ∧ dt'.dbMap = dt.dbMap.erase k ∧ acks' = acks ++ [⟨id, x⟩] ∧
        m0.get? k = some e ∧ e.datum = x.datum ∧ e.expireAt ≠ 0 ∧ liveSource now (dt.sources.getD []) id = true)) := by
  cases h with
  | @purge k e hp he hn hx =>
    refine ⟨?_, .inr (.inl ⟨k, e, he, hx, rfl, rfl⟩)⟩
    have := hi.mono (m' := dt.dbMap.erase k) (le_i64_refl now) (fun k' => erase_none _ _ _)
    refine { this with
      metLive := fun e he => ⟨?_, (hi.metLive e he).2⟩
      seen := ?_ }
    · obtain ⟨k', h1, h2⟩ := (hi.metLive e he).1
      exact ⟨k', h1, List.mem_cons_of_mem _ h2⟩
    · intro k' hk'
      rcases List.mem_cons.1 hk' with rfl | hk'
      · exact .inl (AMap.get?_erase_self _ _)
      · exact this.seen k' hk'
  | @meet k e key hp he hn hx hk =>
    refine ⟨?_, .inl ⟨rfl, .inl rfl⟩⟩
    have hm := hsub k e he
    refine ⟨hi.began, ?_, ?_, hi.chan, hi.cur, ?_, ?_, ?_⟩
    · intro e' he'; cases he'; exact ⟨k, hm⟩
    · intro x hx; cases hx
    · intro e' he'
      simp only [meetEntry, List.mem_append, List.mem_singleton] at he'
      rcases he' with he' | rfl
      · obtain ⟨⟨k', h1, h2⟩, h3⟩ := hi.metLive e' he'
        exact ⟨⟨k', h1, List.mem_cons_of_mem _ h2⟩, h3⟩
      · exact ⟨⟨k, hm, List.mem_cons_self⟩, isExpired_anti hi.began hx⟩
    · simp only [meetEntry]
      rw [List.nodup_append]
      refine ⟨hi.nodup, by simp, ?_⟩
      intro e1 he1 e2 he2 heq
      rw [List.mem_singleton.1 he2] at heq
      subst heq
      obtain ⟨⟨k', h1, h2⟩, _⟩ := hi.metLive e1 he1
      have := get?_inj hm0 h1 hm
      subst this
      exact hn h2
    · intro k' hk'
      simp only [meetEntry] at hk' ⊢
      rcases List.mem_cons.1 hk' with rfl | hk'
      · exact .inr ⟨e, by simp, hm⟩
      · rcases hi.seen k' hk' with h | ⟨e', h1, h2⟩
        · exact .inl h
        · exact .inr ⟨e', by simp [h1], h2⟩
  | @offer rnd e hp _ _ hw ht =>
    refine ⟨{ hi with met := ?_, sending := ?_ }, .inl ⟨rfl, .inl rfl⟩⟩
    · intro e' he'; cases he'
    · intro x hx
      cases hx
      obtain ⟨k, hk⟩ := hi.met e hp
      exact ⟨k, e, now, hk, rfl, le_i64_refl _, rfl, ht⟩
  | skip hp _ _ _ =>
    refine ⟨{ hi with met := ?_, sending := ?_ }, .inl ⟨rfl, .inl rfl⟩⟩
    · intro e' he'; cases he'
    · intro x hx; cases hx
  | @send x hp _ =>
    refine ⟨{ hi with met := ?_, sending := ?_, chan := ?_ }, .inl ⟨rfl, .inl rfl⟩⟩
    · intro e' he'; cases he'
    · intro x hx; cases hx
    · intro y hy
      rcases List.mem_append.1 hy with hy | hy
      · exact hi.chan y hy
      · rw [List.mem_singleton.1 hy]; exact hi.sending x hp
  | @handover x c order hp hc _ _ _ =>
    refine ⟨{ hi with met := ?_, sending := ?_, cur := ?_ }, .inl ⟨rfl, .inl rfl⟩⟩
    · intro e' he'; cases he'
    · intro x hx; cases hx
    · intro c' x' r hc' hx'
      cases hc'; cases hx'
      exact hi.sending x hp
  | endScan hp _ =>
    refine ⟨{ hi with met := ?_, sending := ?_ }, .inl ⟨rfl, .inl rfl⟩⟩
    · intro e' he'; cases he'
    · intro x hx; cases hx
  | @recv x xs c order hc hch _ _ =>
    refine ⟨{ hi with chan := ?_, cur := ?_ }, .inl ⟨rfl, .inl rfl⟩⟩
    · intro y hy
      exact hi.chan y (by rw [hch]; exact List.mem_cons_of_mem _ hy)
    · intro c' x' r hc' hx'
      cases hc'; cases hx'
      exact hi.chan x (by rw [hch]; exact List.mem_cons_self)
  | @evict c x id count rest k hc hcur _ hl hev hk =>
    obtain ⟨k', e, t, h1, h2, _, h3, h4⟩ := hi.cur c x _ hc hcur
    have h0 : e.expireAt ≠ 0 := by
      intro h0
      rw [h0] at h3
      rw [h3] at h4
      have : (insertConfigFromExpireAt t.toUInt64 (0 : Int64).toUInt64).ttl = 0 := rfl
      rw [this] at h4
      exact absurd h4 (by decide)
    obtain ⟨key, a1, a2, a3⟩ := key_of_get? hm0 h1
    rw [h2, hk] at a3
    cases a3
    have hmono := hi.mono (m' := dt.dbMap.erase k) (le_i64_refl now) (fun k' => erase_none _ _ _)
    refine ⟨{ hmono with cur := ?_ }, .inr (.inr ⟨k, x, id, e, rfl, rfl, rfl, h1, h2, h0, hl⟩)⟩
    intro c' x' r hc' hx'
    cases hc'; cases hx'
    exact hi.cur c x _ hc hcur
  | @copy c x id count rest hc hcur _ _ _ _ =>
    refine ⟨{ hi with cur := ?_ }, .inl ⟨rfl, .inr ⟨_, rfl⟩⟩⟩
    intro c' x' r hc' hx'
    cases hc'; cases hx'
    exact hi.cur c x _ hc hcur
  | @pass c x id count rest acc hc hcur =>
    refine ⟨{ hi with cur := ?_ }, .inl ⟨rfl, .inl rfl⟩⟩
    intro c' x' r hc' hx'
    cases hc'; cases hx'
    exact hi.cur c x _ hc hcur
  | @next c x hc _ =>
    refine ⟨{ hi with cur := ?_ }, .inl ⟨rfl, .inl rfl⟩⟩
    intro c' x' r hc' hx'
    cases hc'; cases hx'

theorem mapInv_step {P : PEnv} {m0 : DBMap} (hm0 : WF0 m0) {s s' : PS} {l : Label} (hs : SStep P false s l s')
    (h : MapInv m0 s) : MapInv m0 s' := by
  have hdb : s.dt.initData.dbMap = s.dt.dbMap := Data.initData_dbMap _
  cases hs with
  | @tick now hn =>
    refine ⟨h.wf, h.sub, ?_, fun i hi => (h.inst i hi).mono hn (fun _ h => h)⟩
    intro k e hk
    rcases h.kept k e hk with h | h | h
    · exact .inl h
    · exact .inr (.inl (isExpired_mono hn h))
    · exact .inr (.inr h)
  | setSources =>
    exact ⟨by rw [hdb]; exact h.wf, by rw [hdb]; exact h.sub, by rw [hdb]; exact h.kept, by rw [hdb]; exact h.inst⟩
  | runOff => exact ⟨h.wf, h.sub, h.kept, h.inst⟩
  | run _ hf =>
    refine ⟨h.wf, h.sub, h.kept, ?_⟩
    intro i hi
    rcases List.mem_append.1 hi with hi | hi
    · exact h.inst i hi
    · rw [List.mem_singleton.1 hi]; exact instInv_fresh hf _ _
  | closeBegin _ => exact ⟨h.wf, h.sub, h.kept, h.inst⟩
  | closeDone _ _ => exact ⟨h.wf, h.sub, h.kept, h.inst⟩
  | closeRun _ _ _ hf =>
    refine ⟨h.wf, h.sub, h.kept, ?_⟩
    intro i hi
    rcases List.mem_append.1 hi with hi | hi
    · exact h.inst i hi
    · rw [List.mem_singleton.1 hi]; exact instInv_fresh hf _ _
  | closeReturn _ _ _ => exact ⟨h.wf, h.sub, h.kept, h.inst⟩
  | @act j i i' a dt acks hj hst =>
    obtain ⟨h1, h2⟩ := istep_map hst hm0 h.sub (h.inst i (List.mem_of_getElem? hj))
    have hinst : (∀ k, s.dt.dbMap.get? k = none → dt.dbMap.get? k = none) →
        ∀ i'' ∈ s.insts.set j i', InstInv m0 dt.dbMap s.now i'' := by
      intro hm i'' hi''
      rcases mem_set_list hi'' with rfl | hi''
      · exact h1
      · exact (h.inst i'' hi'').mono (le_i64_refl _) hm
    rcases h2 with ⟨hd, hacks⟩ | ⟨k, e, hk, hx, hd, rfl⟩ | ⟨k, x, id, e, _, hd, rfl, hk, hx, _, _⟩
    · refine ⟨by simp only [hd]; exact h.wf, by simp only [hd]; exact h.sub, ?_, hinst (by rw [hd]; exact fun _ h => h)⟩
      intro k e hk
      simp only [hd]
      rcases h.kept k e hk with h | h | ⟨b, hb, hb'⟩
      · exact .inl h
      · exact .inr (.inl h)
      · refine .inr (.inr ⟨b, ?_, hb'⟩)
        rcases hacks with rfl | ⟨_, rfl⟩
        · exact hb
        · exact List.mem_append_left _ hb
    · refine ⟨by simp only [hd]; exact wf0_erase h.wf k, ?_, ?_, hinst (by rw [hd]; exact fun k' => erase_none _ _ _)⟩
      · intro k' e' hk'
        simp only [hd, AMap.get?_erase] at hk'
        split at hk'
        · cases hk'
        · exact h.sub k' e' hk'
      · intro k' e' hk'
        simp only [hd, AMap.get?_erase]
        by_cases hkk : k = k'
        · subst hkk
          have := h.sub k e hk
          rw [hk'] at this
          cases this
          exact .inr (.inl hx)
        · rw [if_neg hkk]; exact h.kept k' e' hk'
    · refine ⟨by simp only [hd]; exact wf0_erase h.wf k, ?_, ?_, hinst (by rw [hd]; exact fun k' => erase_none _ _ _)⟩
      · intro k' e' hk'
        simp only [hd, AMap.get?_erase] at hk'
        split at hk'
        · cases hk'
        · exact h.sub k' e' hk'
      · intro k' e' hk'
        simp only [hd, AMap.get?_erase]
        by_cases hkk : k = k'
        · subst hkk
          rw [hk] at hk'
          cases hk'
          exact .inr (.inr ⟨_, List.mem_append_right _ (List.mem_singleton.2 rfl), hx.symm⟩)
        · rw [if_neg hkk]
          rcases h.kept k' e' hk' with h | h | ⟨b, hb, hb'⟩
          · exact .inl h
          · exact .inr (.inl h)
          · exact .inr (.inr ⟨b, List.mem_append_left _ hb, hb'⟩)
  | write hW _ => cases hW
  | delete hW _ => cases hW

theorem mapInv_init {dt : Data} (now : Int64) (h : WF0 dt.dbMap) : MapInv dt.dbMap (initial dt now) :=
  ⟨h, fun _ _ h => h, fun _ _ h => .inl h, by simp [initial]⟩

theorem mapInv_reach {P : PEnv} {dt : Data} {now : Int64} (hwf : WF0 dt.dbMap) {s : PS}
    (h : Reach P false (initial dt now) s) : MapInv dt.dbMap s :=
  reach_inv (MapInv dt.dbMap) (mapInv_init now hwf) (fun _ _ _ _ hi hs => mapInv_step hwf hs hi) h

theorem nodup_length_le {α : Type} [DecidableEq α] : ∀ {l m : List α}, l.Nodup → (∀ x ∈ l, x ∈ m) → l.length ≤ m.length := by
  intro l
  induction l with
  | nil => intro m _ _; exact Nat.zero_le _
  | cons x l ih =>
    intro m hn hs
    obtain ⟨hx, hn⟩ := List.nodup_cons.1 hn
    have h1 : l.length ≤ (m.erase x).length := ih hn fun y hy =>
      (List.mem_erase_of_ne (fun h => hx (by rw [← h]; exact hy))).2 (hs y (List.mem_cons_of_mem _ hy))
    have h2 := List.length_erase_of_mem (hs x List.mem_cons_self)
    have h3 := List.length_pos_of_mem (hs x List.mem_cons_self)
    simp only [List.length_cons]
    omega

theorem entries_nodup {m : DBMap} (h : WF0 m) : (m.map (·.2)).Nodup := by
  have h1 := h.nodup
  have h2 : ∀ p ∈ m, ∀ q ∈ m, p.2 = q.2 → p = q := by
    intro p hp q hq hpq
    have a := AMap.get?_of_mem h.nodup (show (p.1, p.2) ∈ m from hp)
    have b := AMap.get?_of_mem h.nodup (show (q.1, q.2) ∈ m from hq)
    rw [← hpq] at b
    exact Prod.ext (get?_inj h a b) hpq
  unfold AMap.Nodup AMap.keys at h1
  clear h
  induction m with
  | nil => exact List.nodup_nil
  | cons p m ih =>
    simp only [List.map_cons, List.nodup_cons] at h1 ⊢
    refine ⟨?_, ih h1.2 fun p hp q hq => h2 p (List.mem_cons_of_mem _ hp) q (List.mem_cons_of_mem _ hq)⟩
    intro hc
    obtain ⟨q, hq, hqp⟩ := List.mem_map.1 hc
    have := h2 q (List.mem_cons_of_mem _ hq) p List.mem_cons_self hqp
    subst this
    exact h1.1 (List.mem_map.2 ⟨_, hq, rfl⟩)

theorem met_length_le {m0 m : DBMap} {now : Int64} {i : Inst} (h : InstInv m0 m now i) : i.met.length ≤ m0.length := by
  have := nodup_length_le (m := m0.map (·.2)) h.nodup (fun e he => by
    obtain ⟨⟨k, hk, _⟩, _⟩ := h.metLive e he
    exact List.mem_map.2 ⟨(k, e), AMap.mem_of_get? hk, rfl⟩)
  simpa using this

/-- When the scan ends, everything left in the map has been met. -/
theorem endScan_met {m0 m : DBMap} {now : Int64} {i : Inst} (h : InstInv m0 m now i) (hwf : WF0 m)
    (hsub : ∀ k e, m.get? k = some e → m0.get? k = some e) (hall : ∀ p ∈ m, p.1 ∈ i.seen) :
    (∀ p ∈ m, p.2 ∈ i.met) ∧ m.length ≤ i.met.length := by
  have h1 : ∀ p ∈ m, p.2 ∈ i.met := by
    intro p hp
    have hg := AMap.get?_of_mem hwf.nodup (show (p.1, p.2) ∈ m from hp)
    rcases h.seen p.1 (hall p hp) with hn | ⟨e, he, hm⟩
    · rw [hn] at hg; cases hg
    · have := hsub _ _ hg
      rw [this] at hm
      cases hm
      exact he
  refine ⟨h1, ?_⟩
  have := nodup_length_le (m := i.met) (entries_nodup hwf) (fun e he => by
    obtain ⟨p, hp, rfl⟩ := List.mem_map.1 he
    exact h1 p hp)
  simpa using this

theorem reach_trans {P : PEnv} {W : Bool} {a b c : PS} (h : Reach P W a b) (g : Reach P W b c) : Reach P W a c := by
  induction g with
  | refl => exact h
  | step l _ hs ih => exact .step l ih hs

/-- `N` changes only when a scan ends. -/
theorem n_const {P : PEnv} {W : Bool} {s s' : PS} {l : Label} (h : SStep P W s l s') (hl : ∀ j, l ≠ .act j .endScan) :
    s'.dt.n = s.dt.n := by
  have hid : s.dt.initData.n = s.dt.n := by unfold Data.initData; split <;> rfl
  cases h with
  | setSources => exact hid
  | @act j i i' a dt acks hj hs => cases hs <;> first | rfl | exact absurd rfl (hl j)
  | write _ ho =>
    rcases insert_frame ho with h | ⟨m, r, h⟩
    · rw [h]
    · rw [h]; exact hid
  | delete _ ho => obtain ⟨m, rfl⟩ := delete_frame ho; rfl
  | _ => rfl

theorem set_finished {l : List Inst} {j : Nat} {i i' : Inst} (hj : l[j]? = some i)
    (h : ∃ x ∈ l.set j i', x.phase = .finished) (hi' : i'.phase = .finished → i.phase = .finished) :
    ∃ x ∈ l, x.phase = .finished := by
  obtain ⟨x, hx, hf⟩ := h
  rcases mem_set_list hx with rfl | hx
  · exact ⟨i, List.mem_of_getElem? hj, hi' hf⟩
  · exact ⟨x, hx, hf⟩

/-- Once a scan has ended, and as long as nobody else writes, `N` is not below the size. -/
theorem size_reach {P : PEnv} {dt : Data} {now : Int64} (hi : dt.initialized = true) (hwf : WF0 dt.dbMap)
    (hlen : dt.dbMap.length < 2 ^ 64) {s : PS} (h : Reach P false (initial dt now) s) :
    (∃ i ∈ s.insts, i.phase = .finished) → s.dt.dbMap.length ≤ s.dt.n.toNat := by
  refine reach_inv (fun s => (∃ i ∈ s.insts, i.phase = .finished) → s.dt.dbMap.length ≤ s.dt.n.toNat) ?_ ?_ h
  · simp [initial]
  · rintro s s' l hr ih hs
    have hid : s.dt.initData = s.dt := Data.initData_of_initialized (basic_reach hi hr).1
    have hfresh : ∀ i : Inst, i.phase = .scanning → (∃ x ∈ s.insts ++ [i], x.phase = .finished) →
        ∃ x ∈ s.insts, x.phase = .finished := by
      rintro i hi ⟨x, hx, hf⟩
      rcases List.mem_append.1 hx with hx | hx
      · exact ⟨x, hx, hf⟩
      · rw [List.mem_singleton.1 hx, hi] at hf; cases hf
    cases hs with
    | setSources => rw [hid]; exact ih
    | run _ hf => exact fun h => ih (hfresh _ hf.phase h)
    | closeRun _ _ _ hf => exact fun h => ih (hfresh _ hf.phase h)
    | @act j i i' a dt' acks hj hst =>
      have hmi := mapInv_reach hwf hr
      have hii := hmi.inst i (List.mem_of_getElem? hj)
      cases hst with
      | purge hp _ _ _ =>
        intro h
        have := ih (set_finished hj h fun h => h)
        exact Nat.le_trans (erase_length_le _ _) this
      | meet hp _ _ _ _ => exact fun h => ih (set_finished hj h fun h => by cases h)
      | offer => exact fun h => ih (set_finished hj h fun h => by cases h)
      | skip => exact fun h => ih (set_finished hj h fun h => by cases h)
      | send => exact fun h => ih (set_finished hj h fun h => by cases h)
      | handover => exact fun h => ih (set_finished hj h fun h => by cases h)
      | endScan hp hall =>
        intro _
        have hall := hall.resolve_left (by decide)
        have h1 := (endScan_met hii hmi.wf hmi.sub hall).2
        have h2 := met_length_le hii
        have h3 := ((basic_reach hi hr).2.2 i (List.mem_of_getElem? hj)).n
        show s.dt.dbMap.length ≤ i.stats.n.toNat
        rw [h3, UInt64.toNat_ofNat']
        omega
      | recv => exact fun h => ih (set_finished hj h fun h => h)
      | evict =>
        intro h
        have := ih (set_finished hj h fun h => h)
        exact Nat.le_trans (erase_length_le _ _) this
      | copy => exact fun h => ih (set_finished hj h fun h => h)
      | pass => exact fun h => ih (set_finished hj h fun h => h)
      | next => exact fun h => ih (set_finished hj h fun h => h)
    | write hW _ => cases hW
    | delete hW _ => cases hW
    | _ => exact ih

/-- Before the first scan has ended, `N` is what it was. -/
theorem n_before {P : PEnv} {W : Bool} {dt : Data} {now : Int64} {s : PS} (h : Reach P W (initial dt now) s) :
    (∃ i ∈ s.insts, i.phase = .finished) ∨ s.dt.n = dt.n := by
  refine reach_inv (fun s => (∃ i ∈ s.insts, i.phase = .finished) ∨ s.dt.n = dt.n) (.inr rfl) ?_ h
  intro s s' l _ ih hs
  by_cases hl : ∃ j, l = .act j .endScan
  · obtain ⟨j, rfl⟩ := hl
    cases hs with
    | @act j i i' a dt' acks hj hst =>
      cases hst
      exact .inl ⟨{ i with phase := .finished },
        List.mem_iff_getElem?.2 ⟨j, List.getElem?_set_self (List.getElem?_eq_some_iff.1 hj).1⟩, rfl⟩
  · have hn := n_const hs fun j hj => hl ⟨j, hj⟩
    rcases ih with ⟨i, hi, hf⟩ | ih
    · left
      cases hs with
      | run => exact ⟨i, List.mem_append_left _ hi, hf⟩
      | closeRun => exact ⟨i, List.mem_append_left _ hi, hf⟩
      | @act j i1 i' a dt' acks hj hst =>
        obtain ⟨n, hn⟩ := List.mem_iff_getElem?.1 hi
        by_cases hjn : j = n
        · subst hjn
          rw [hj] at hn
          cases hn
          have hlt : j < s.insts.length := (List.getElem?_eq_some_iff.1 hj).1
          refine ⟨i', List.mem_iff_getElem?.2 ⟨j, List.getElem?_set_self hlt⟩, ?_⟩
          cases hst with
          | purge hp => rw [hf] at hp; cases hp
          | meet hp => rw [hf] at hp; cases hp
          | offer hp => rw [hf] at hp; cases hp
          | skip hp => rw [hf] at hp; cases hp
          | send hp => rw [hf] at hp; cases hp
          | handover hp => rw [hf] at hp; cases hp
          | endScan => rfl
          | _ => exact hf
        · refine ⟨i, List.mem_iff_getElem?.2 ⟨n, ?_⟩, hf⟩
          rw [List.getElem?_set_ne hjn]; exact hn
      | _ => exact ⟨i, hi, hf⟩
    · exact .inr (hn.trans ih)

/-- Entries without expiry are never removed. -/
theorem permanent_kept {P : PEnv} {dt : Data} {now : Int64} (hwf : WF0 dt.dbMap) {k : Bytes} {e : Entry}
    (hk : dt.dbMap.get? k = some e) (he : e.expireAt = 0) {s : PS} (h : Reach P false (initial dt now) s) :
    s.dt.dbMap.get? k = some e := by
  refine reach_inv (fun s => s.dt.dbMap.get? k = some e) hk ?_ h
  intro s s' l hr ih hs
  have hdb : s.dt.initData.dbMap = s.dt.dbMap := Data.initData_dbMap _
  cases hs with
  | setSources => rw [← hdb] at ih; exact ih
  | @act j i i' a dt' acks hj hst =>
    have hmi := mapInv_reach hwf hr
    obtain ⟨_, h2⟩ := istep_map hst hwf hmi.sub (hmi.inst i (List.mem_of_getElem? hj))
    rcases h2 with ⟨hd, _⟩ | ⟨k', e', hk', hx, hd, _⟩ | ⟨k', x, id, e', _, hd, _, hk', _, hx, _⟩
    · show dt'.dbMap.get? k = some e
      rw [hd]; exact ih
    · show dt'.dbMap.get? k = some e
      rw [hd, AMap.get?_erase]
      split
      · rename_i hkk
        subst hkk
        rw [hk'] at ih
        cases ih
        simp [isExpired, he] at hx
      · exact ih
    · show dt'.dbMap.get? k = some e
      rw [hd, AMap.get?_erase]
      split
      · rename_i hkk
        subst hkk
        rw [hk] at hk'
        cases hk'
        exact absurd he hx
      · exact ih
  | write hW _ => cases hW
  | delete hW _ => cases hW
  | _ => exact ih

theorem mem_of_lookup {α β : Type} [BEq α] [LawfulBEq α] : ∀ {l : List (α × β)} {a : α} {b : β}, l.lookup a = some b → (a, b) ∈ l := by
  intro l
  induction l with
  | nil => intro a b h; cases h
  | cons p l ih =>
    intro a b h
    obtain ⟨x, y⟩ := p
    rw [List.lookup_cons] at h
    split at h
    · rename_i hx
      cases h
      rw [eq_of_beq hx]
      exact List.mem_cons_self
    · exact List.mem_cons_of_mem _ (ih h)

/-- Everything in the index comes from the map at the beginning, if it did so then. -/
theorem annoy_reach {P : PEnv} {dt : Data} {now : Int64} (hi : dt.initialized = true) (hwf : WF0 dt.dbMap)
    (ha : ∀ a, dt.annoyer = some a → ∀ d, some d ∈ a.dataIndex → ∃ k e, dt.dbMap.get? k = some e ∧ e.datum = d)
    {s : PS} (h : Reach P false (initial dt now) s) :
    ∀ a, s.dt.annoyer = some a → ∀ d, some d ∈ a.dataIndex → ∃ k e, dt.dbMap.get? k = some e ∧ e.datum = d := by
  refine reach_inv (fun s => ∀ a, s.dt.annoyer = some a → ∀ d, some d ∈ a.dataIndex →
    ∃ k e, dt.dbMap.get? k = some e ∧ e.datum = d) ha ?_ h
  intro s s' l hr ih hs
  have hid : s.dt.initData = s.dt := Data.initData_of_initialized (basic_reach hi hr).1
  cases hs with
  | setSources => rw [hid]; exact ih
  | @act j i i' a dt' acks hj hst =>
    have hmi := mapInv_reach hwf hr
    have hii := hmi.inst i (List.mem_of_getElem? hj)
    cases hst with
    | endScan hp hall =>
      intro a ha d hd
      simp only [finish] at ha
      split at ha
      · exact ih a ha d hd
      · cases ha
        simp only [dataIndex, List.mem_map] at hd
        obtain ⟨n, _, hn⟩ := hd
        obtain ⟨e, he, hed⟩ := ((basic_reach hi hr).2.2 i (List.mem_of_getElem? hj)).slots (n, d) (mem_of_lookup hn)
        obtain ⟨⟨k, hk, _⟩, _⟩ := hii.metLive e he
        exact ⟨k, e, hk, hed⟩
    | _ => exact ih
  | write hW _ => cases hW
  | delete hW _ => cases hW
  | _ => exact ih

end Proc
end Veri
