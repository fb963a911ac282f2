import Verif.Process.Props
import Verif.Search.Props
/-
What maintenance means for the target, for index search and for its own end: C16, C26, C77.
-/
set_option autoImplicit false
namespace Veri
open Gencoder Proc
open Store hiding Label

/-! ### C16 -/

/-- C16, full statement.  FALSE of the code: the size compared with the target is the one of the last maintenance run. -/
def C16_target_statement : Prop :=
  ∀ (P : PEnv) (c : DataConfig) (now : Int64) (s : PS), c.noTarget = false →
    Reach P true (initial (Data.newData c) now) s → s.dt.dbMap.length ≤ c.targetN.toNat

/-- Two inserts into a data set with target 1. -/
theorem C16_target_fails : ¬ C16_target_statement := by
  intro h
  have ht : (exec softP true (initial (Data.newData ⟨"example", 0, 1, 0, false, 0, false, 0⟩) 1000)
      [.write (exD 1 1) none, .write (exD 2 1) none]).map (fun s => s.dt.dbMap.length) = some 2 := by decide +kernel
  obtain ⟨s, hr, hf⟩ := exec_reach ht
  have := h softP _ 1000 s rfl hr
  rw [hf] at this
  exact absurd this (by decide)

namespace Proc

theorem insertBDMap_shape {now : Int64} {m m' : DBMap} {d : Datum} {config : Option InsertConfig} {b : Bool}
    (h : insertBDMap now m (some d) config = .ok (m', b)) :
    (m' = m ∧ b = false) ∨ ∃ k, d.key = some k ∧ m' = m.set (encKey k) ⟨expireAtOf now config, d⟩ ∧ b = true := by
  unfold insertBDMap at h
  simp only [Res.ofOption, Res.bind_eq, Res.bind_ok, Res.pure_eq] at h
  cases hk : d.key with
  | none =>
    have : getKeyAsBytes d = none := by simp [getKeyAsBytes, hk]
    rw [this] at h; cases h
  | some k =>
    have hg : getKeyAsBytes d = some (encKey k) := by
      obtain ⟨dk, dv⟩ := d
      simp only at hk
      subst hk
      exact getKeyAsBytes_some k dv
    rw [hg] at h
    simp only [Res.bind_ok] at h
    split at h
    · rename_i oe hoe
      cases hv : getValueAsBytes d with
      | none => rw [hv] at h; cases h
      | some vb =>
        rw [hv] at h
        simp only [Res.bind_ok] at h
        cases hv2 : getValueAsBytes oe.datum with
        | none => rw [hv2] at h; cases h
        | some vb2 =>
          rw [hv2] at h
          simp only [Res.bind_ok] at h
          split at h
          · cases h; exact .inl ⟨rfl, rfl⟩
          · cases h; exact .inr ⟨k, rfl, rfl, rfl⟩
    · cases h; exact .inr ⟨k, rfl, rfl, rfl⟩

theorem length_set_le {κ α : Type} [DecidableEq κ] (m : AMap κ α) (k : κ) (v : α) : (m.set k v).length ≤ m.length + 1 := by
  have := erase_length_le m k
  simp only [AMap.set, List.length_cons]
  omega

/-- A history of a data set in which clients do not write during maintenance: inserts, deletes, and phases of maintenance
(any number of concurrent runs) in which at least one run comes to its end.  The number counts the inserts accepted since
the last such phase. -/
inductive Hist (P : PEnv) (c : DataConfig) : Data → Nat → Prop
  | start : Hist P c (Data.newData c) 0
  | insert {dt : Data} {a : Nat} {σ : Type} {now : Int64} {order : List SourceId} {call : Data.RemoteInsert σ} {w : σ}
      {datum : Option Datum} {config : Option InsertConfig} {out : Data.InsertOut σ} : Hist P c dt a →
      Data.insert now order call dt w datum config = .ok out →
      Hist P c out.data (if out.err = some .overTarget then a else a + 1)
  | delete {dt dt' : Data} {a : Nat} {datum : Option Datum} : Hist P c dt a → Data.delete dt datum = .ok dt' → Hist P c dt' a
  | maintain {dt : Data} {a : Nat} {now : Int64} {s : PS} : Hist P c dt a → dt.dbMap.length < 2 ^ 64 →
      Reach P false (initial dt now) s → (∃ i ∈ s.insts, i.phase = .finished) → Hist P c s.dt 0

theorem insert_data_cases {σ : Type} {now : Int64} {order : List SourceId} {call : Data.RemoteInsert σ} {dt : Data} {w : σ}
    {datum : Option Datum} {config : Option InsertConfig} {out : Data.InsertOut σ}
    (h : Data.insert now order call dt w datum config = .ok out) (hi : dt.initialized = true) :
    (Ref.full dt ∧ out.data = dt ∧ out.err = some .overTarget) ∨
    (¬ Ref.full dt ∧ out.err ≠ some .overTarget ∧ out.data.n = dt.n ∧ out.data.config = dt.config ∧
      out.data.initialized = true ∧
      (out.data.dbMap = dt.dbMap ∨ ∃ k v x, out.data.dbMap = dt.dbMap.set (encKey k) ⟨x, ⟨some k, v⟩⟩)) := by
  rcases Data.insert_cases _ _ _ _ _ _ _ _ h with ⟨hf, rfl⟩ | ⟨hf, d, dc, m, b, rfl, _, hm, hd, herr⟩
  · exact .inl ⟨hf, rfl, rfl⟩
  · refine .inr ⟨hf, ?_, ?_, ?_, ?_, ?_⟩
    · rcases herr with h | h
      · rw [h.2.2.2]; simp
      · obtain ⟨_, _, k, _, _, _, _, _, he⟩ := h
        rw [he]
        split <;> simp
    · rw [hd, Data.initData_of_initialized hi]
    · rw [hd, Data.initData_of_initialized hi]
    · rw [hd, Data.initData_of_initialized hi]; exact hi
    · rw [hd]
      rcases insertBDMap_shape hm with ⟨rfl, _⟩ | ⟨k, hk, rfl, _⟩
      · exact .inl rfl
      · obtain ⟨dk, dv⟩ := d
        simp only at hk
        subst hk
        exact .inr ⟨k, dv, _, rfl⟩

theorem hist_inv {P : PEnv} {c : DataConfig} {dt : Data} {a : Nat} (h : Hist P c dt a) :
    dt.initialized = true ∧ dt.config = some c ∧ WF0 dt.dbMap ∧ dt.dbMap.length ≤ dt.n.toNat + a := by
  induction h with
  | start => exact ⟨rfl, rfl, ⟨List.nodup_nil, by intro b e he; cases he⟩, Nat.zero_le _⟩
  | @insert dt a σ now order call w datum config out _ ho ih =>
    obtain ⟨h1, h2, h3, h4⟩ := ih
    rcases insert_data_cases ho h1 with ⟨_, hd, he⟩ | ⟨_, he, hn, hc, hi, hm⟩
    · rw [hd, if_pos he]; exact ⟨h1, h2, h3, h4⟩
    · rw [if_neg he]
      refine ⟨hi, hc.trans h2, ?_, ?_⟩
      · rcases hm with hm | ⟨k, v, x, hm⟩
        · rw [hm]; exact h3
        · rw [hm]; exact wf0_set h3 k v x
      · rw [hn]
        rcases hm with hm | ⟨k, v, x, hm⟩
        · rw [hm]; omega
        · rw [hm]; have := length_set_le dt.dbMap (encKey k) (⟨x, ⟨some k, v⟩⟩ : Entry); omega
  | @delete dt dt' a datum _ hd ih =>
    obtain ⟨h1, h2, h3, h4⟩ := ih
    unfold Data.delete deleteBDMap at hd
    cases datum with
    | none => cases hd
    | some d =>
      cases hk : getKeyAsBytes d with
      | none => simp [Res.bind_eq, hk] at hd
      | some kb =>
        simp only [Res.ofOption_some, Res.bind_eq, Res.bind_ok, hk, Res.pure_eq, Res.ok.injEq] at hd
        subst hd
        exact ⟨h1, h2, wf0_erase h3 kb, Nat.le_trans (erase_length_le _ _) h4⟩
  | @maintain dt a now s _ hlen hr hf ih =>
    obtain ⟨h1, h2, h3, h4⟩ := ih
    exact ⟨(basic_reach h1 hr).1, (basic_reach h1 hr).2.1.trans h2, (mapInv_reach h3 hr).wf, size_reach h1 h3 hlen hr hf⟩

end Proc

/-- C16, what holds.  An accepted insert leaves at most target - 1 data more than the inserts accepted since the last
maintenance (itself included), and once the size of the last maintenance reaches the target every insert is refused.
Missing: the bound by the target itself (`C16_target_fails`). -/
theorem C16_target_partial (P : PEnv) (c : DataConfig) (hc : c.noTarget = false) (dt : Data) (a : Nat)
    (h : Hist P c dt a) {σ : Type} (now : Int64) (order : List SourceId) (call : Data.RemoteInsert σ) (w : σ)
    (datum : Option Datum) (config : Option InsertConfig) (out : Data.InsertOut σ)
    (ho : Data.insert now order call dt w datum config = .ok out) :
    (out.err ≠ some .overTarget → out.data.dbMap.length < c.targetN.toNat + (a + 1)) ∧
    (c.targetN ≤ dt.n → out.err = some .overTarget ∧ out.data = dt) := by
  obtain ⟨h1, h2, h3, h4⟩ := hist_inv h
  rcases insert_data_cases ho h1 with ⟨hf, hd, he⟩ | ⟨hf, he, hn, hcf, hi, hm⟩
  · exact ⟨fun h => absurd he h, fun _ => ⟨he, hd⟩⟩
  · have hlt : dt.n.toNat < c.targetN.toNat := by
      rw [← UInt64.lt_iff_toNat_lt]
      apply Classical.byContradiction
      intro hlt
      exact hf ⟨c, h2, hc, UInt64.not_lt.1 hlt⟩
    refine ⟨fun _ => ?_, fun hle => absurd (UInt64.le_iff_toNat_le.1 hle) (by omega)⟩
    rcases hm with hm | ⟨k, v, x, hm⟩
    · rw [hm]; omega
    · rw [hm]; have := length_set_le dt.dbMap (encKey k) (⟨x, ⟨some k, v⟩⟩ : Entry); omega

/-- C16: deletes and maintenance never make the store larger. -/
theorem C16_only_inserts_grow (P : PEnv) (dt : Data) :
    (∀ dt' datum, Data.delete dt datum = .ok dt' → dt'.dbMap.length ≤ dt.dbMap.length) ∧
    (WF0 dt.dbMap → ∀ now s, Reach P false (initial dt now) s → s.dt.dbMap.length ≤ dt.dbMap.length) := by
  constructor
  · intro dt' datum hd
    unfold Data.delete deleteBDMap at hd
    cases datum with
    | none => cases hd
    | some d =>
      cases hk : getKeyAsBytes d with
      | none => simp [Res.bind_eq, hk] at hd
      | some kb =>
        simp only [Res.ofOption_some, Res.bind_eq, Res.bind_ok, hk, Res.pure_eq, Res.ok.injEq] at hd
        subst hd
        exact erase_length_le _ _
  · intro hwf now s h
    have hmi := mapInv_reach hwf h
    have := nodup_length_le (m := dt.dbMap.map (·.1)) (show (s.dt.dbMap.map (·.1)).Nodup from hmi.wf.nodup) (fun k hk => by
      obtain ⟨p, hp, rfl⟩ := List.mem_map.1 hk
      exact List.mem_map.2 ⟨_, AMap.mem_of_get? (hmi.sub _ _ (AMap.get?_of_mem hmi.wf.nodup (show (p.1, p.2) ∈ _ from hp))), rfl⟩)
    simpa using this

/-! ### C26 -/

/-- C26, full statement, for histories of one data set from its creation.  FALSE of the code: the index answers from the
data that the last run met. -/
def C26_index_live_statement : Prop :=
  ∀ (P : PEnv) (E : Env) (c : DataConfig) (now : Int64) (s : PS), Reach P true (initial (Data.newData c) now) s →
    ∀ (vs : List Visit) (answer : List Nat) (q : Datum) (config : Option SearchConfig) (a : Annoyer) (dt' : Data)
      (out : Search.Collector), s.dt.annoyer = some a → a.dataIndex ≠ [] →
    Search.searchAnnoy E vs answer s.dt q config = .ok (dt', out) →
    ∀ sd ∈ out.list, ∃ k e, s.dt.dbMap.get? k = some e ∧ e.datum = sd.datum ∧ isExpired e s.now = false

def Proc.hitsOf : Res (Data × Search.Collector) → Option (List Datum)
  | .ok (_, c) => some (c.list.map (·.datum))
  | _ => none

/-- Insert, maintenance, delete, index search. -/
theorem C26_index_live_fails : ¬ C26_index_live_statement := by
  intro h
  have ht : (exec softP true (exStart 0) (exFirst ["a"] 0 ++ [.delete (exD 1 1)])).map (fun s =>
      (s.dt.dbMap, s.dt.annoyer.map (·.dataIndex.isEmpty),
        hitsOf (Search.searchAnnoy Search.exEnv [] [0] s.dt (exD 1 1) none))) =
      some ([], some false, some [exD 1 1]) := by decide +kernel
  obtain ⟨s, hr, hf⟩ := exec_reach ht
  simp only [Prod.mk.injEq] at hf
  obtain ⟨h1, h2, h3⟩ := hf
  cases ha : s.dt.annoyer with
  | none => rw [ha] at h2; cases h2
  | some a =>
    rw [ha] at h2
    simp only [Option.map_some, Option.some.injEq] at h2
    cases hs : Search.searchAnnoy Search.exEnv [] [0] s.dt (exD 1 1) none with
    | panic => rw [hs] at h3; cases h3
    | err e => rw [hs] at h3; cases h3
    | ok p =>
      rw [hs] at h3
      simp only [hitsOf, Option.some.injEq] at h3
      have hne : p.2.list ≠ [] := by intro h0; rw [h0] at h3; cases h3
      obtain ⟨sd, l, hl⟩ := List.exists_cons_of_ne_nil hne
      obtain ⟨k, e, hk, _⟩ := h softP Search.exEnv _ _ s hr [] [0] (exD 1 1) none a p.1 p.2 ha
        (by intro h0; rw [h0] at h2; cases h2) hs sd (by rw [hl]; exact List.mem_cons_self)
      rw [h1] at hk
      cases hk

namespace Proc

/-- Was `d` stored and alive at some moment of this execution from `s0`? -/
def WasLive (P : PEnv) (W : Bool) (s0 : PS) (ls : List Label) (d : Datum) : Prop :=
  ∃ l1 l2 t k e, ls = l1 ++ l2 ∧ exec P W s0 l1 = some t ∧ t.dt.dbMap.get? k = some e ∧ e.datum = d ∧ isExpired e t.now = false

theorem wasLive_cons {P : PEnv} {W : Bool} {s t : PS} {l : Label} {ls : List Label} {d : Datum}
    (hs : step P W s l = some t) (h : WasLive P W t ls d) : WasLive P W s (l :: ls) d := by
  obtain ⟨l1, l2, u, k, e, rfl, h1, h2⟩ := h
  exact ⟨l :: l1, l2, u, k, e, rfl, by simp only [exec, hs, Option.bind_some]; exact h1, h2⟩

theorem index_step {P : PEnv} {W : Bool} {s s' : PS} {l : Label} (L : Datum → Prop) (hini : s.dt.initialized = true)
    (hs : SStep P W s l s') (hlive : ∀ k e, s.dt.dbMap.get? k = some e → isExpired e s.now = false → L e.datum)
    (h1 : ∀ a, s.dt.annoyer = some a → ∀ d, some d ∈ a.dataIndex → L d) (h2 : ∀ i ∈ s.insts, ∀ p ∈ i.slots, L p.2) :
    (∀ a, s'.dt.annoyer = some a → ∀ d, some d ∈ a.dataIndex → L d) ∧ ∀ i ∈ s'.insts, ∀ p ∈ i.slots, L p.2 := by
  have hid : s.dt.initData = s.dt := Data.initData_of_initialized hini
  have hfresh : ∀ i : Inst, i.slots = [] → ∀ x ∈ s.insts ++ [i], ∀ p ∈ x.slots, L p.2 := by
    intro i h0 x hx p hp
    rcases List.mem_append.1 hx with hx | hx
    · exact h2 x hx p hp
    · rw [List.mem_singleton.1 hx, h0] at hp; cases hp
  cases hs with
  | setSources => rw [hid]; exact ⟨h1, h2⟩
  | run _ hf => exact ⟨h1, hfresh _ hf.slots⟩
  | closeRun _ _ _ hf => exact ⟨h1, hfresh _ hf.slots⟩
  | @act j i i' a dt' acks hj hist =>
    have hmem := List.mem_of_getElem? hj
    have hset : (∀ p ∈ i'.slots, L p.2) → ∀ x ∈ s.insts.set j i', ∀ p ∈ x.slots, L p.2 := by
      intro hh x hx p hp
      rcases mem_set_list hx with rfl | hx
      · exact hh p hp
      · exact h2 x hx p hp
    cases hist with
    | @meet k e key hp he hns hx hk =>
      refine ⟨h1, hset ?_⟩
      intro p hp
      simp only [meetEntry] at hp
      split at hp
      · rcases List.mem_cons.1 hp with rfl | hp
        · exact hlive k e he hx
        · exact h2 i hmem p hp
      · exact h2 i hmem p hp
    | endScan hp hall =>
      refine ⟨?_, hset (h2 i hmem)⟩
      intro a ha d hd
      simp only [finish] at ha
      split at ha
      · exact h1 a ha d hd
      · cases ha
        simp only [dataIndex, List.mem_map] at hd
        obtain ⟨n, _, hn⟩ := hd
        exact h2 i hmem (n, d) (mem_of_lookup hn)
    | _ => exact ⟨h1, hset (h2 i hmem)⟩
  | @write datum config out hW ho =>
    rcases insert_frame ho with hd | ⟨m, r, hd⟩
    · exact ⟨by simp only [hd]; exact h1, h2⟩
    · refine ⟨?_, h2⟩
      intro a ha
      simp only [hd, hid] at ha
      exact h1 a ha
  | @delete datum dt' hW ho =>
    obtain ⟨m, hd⟩ := delete_frame ho
    refine ⟨?_, h2⟩
    intro a ha
    simp only [hd] at ha
    exact h1 a ha
  | _ => exact ⟨h1, h2⟩

theorem index_exec {P : PEnv} {W : Bool} : ∀ (ls : List Label) {s s' : PS} (L : Datum → Prop), s.dt.initialized = true →
    exec P W s ls = some s' → (∀ a, s.dt.annoyer = some a → ∀ d, some d ∈ a.dataIndex → L d) →
    (∀ i ∈ s.insts, ∀ p ∈ i.slots, L p.2) →
    ∀ a, s'.dt.annoyer = some a → ∀ d, some d ∈ a.dataIndex → L d ∨ WasLive P W s ls d := by
  intro ls
  induction ls with
  | nil =>
    intro s s' L _ h h1 _ a ha d hd
    simp only [exec, Option.some.injEq] at h
    subst h
    exact .inl (h1 a ha d hd)
  | cons l ls ih =>
    intro s s' L hi h h1 h2 a ha d hd
    simp only [exec] at h
    cases hs : step P W s l with
    | none => rw [hs] at h; cases h
    | some t =>
      rw [hs, Option.bind_some] at h
      obtain ⟨h3, h4⟩ := index_step (fun d => L d ∨ WasLive P W s [] d) hi (sstep_of hs)
        (fun k e he hx => .inr ⟨[], [], s, k, e, rfl, rfl, he, rfl, hx⟩) (fun a ha d hd => .inl (h1 a ha d hd))
        (fun i hi p hp => .inl (h2 i hi p hp))
      rcases ih _ (sstep_alive (sstep_of hs) hi).1 h h3 h4 a ha d hd with (h5 | ⟨l1, l2, u, k, e, hnil, h5, h6⟩) | h5
      · exact .inl h5
      · obtain ⟨rfl, rfl⟩ := List.append_eq_nil_iff.1 hnil.symm
        exact .inr ⟨[], l :: ls, u, k, e, rfl, h5, h6⟩
      · exact .inr (wasLive_cons hs h5)

theorem index_wasLive {P : PEnv} {W : Bool} {dt : Data} {now : Int64} (ha : dt.annoyer = none) (hi : dt.initialized = true)
    {ls : List Label} {s : PS} (h : exec P W (initial dt now) ls = some s) :
    ∀ a, s.dt.annoyer = some a → ∀ d, some d ∈ a.dataIndex → WasLive P W (initial dt now) ls d := by
  intro a h' d hd
  refine (index_exec ls (fun _ => False) hi h ?_ (by simp [initial]) a h' d hd).resolve_left id
  intro b hb
  rw [show (initial dt now).dt.annoyer = dt.annoyer from rfl, ha] at hb
  cases hb

theorem searchAnnoy_mem {E : Env} {vs : List Visit} {answer : List Nat} {dt dt' : Data} {q : Datum}
    {config : Option SearchConfig} {a : Annoyer} {out : Search.Collector} (ha : dt.annoyer = some a)
    (hne : a.dataIndex ≠ []) (h : Search.searchAnnoy E vs answer dt q config = .ok (dt', out)) :
    ∀ sd ∈ out.list, some sd.datum ∈ a.dataIndex ∧ Ref.Passes E.jsonHas (config.getD Search.defaultSearchConfig) sd.datum := by
  unfold Search.searchAnnoy at h
  rw [ha] at h
  simp only at h
  rw [if_neg (by simpa using hne)] at h
  cases hk : q.key with
  | none => rw [hk] at h; cases h
  | some qk =>
    rw [hk] at h
    simp only [Res.ofOption_some, Res.bind_ok] at h
    cases hl : Search.annoyLoop E q a.dataIndex (Search.newCollector (config.getD Search.defaultSearchConfig)) 0 answer with
    | panic => rw [hl] at h; cases h
    | err e => rw [hl] at h; cases h
    | ok c =>
      rw [hl] at h
      cases h
      exact Search.annoyLoop_invariant q a.dataIndex (config.getD Search.defaultSearchConfig)
        (fun sd => some sd.datum ∈ a.dataIndex ∧ Ref.Passes E.jsonHas (config.getD Search.defaultSearchConfig) sd.datum)
        (fun d k qk c h1 _ _ _ h2 => ⟨h1, h2⟩) answer _ _ _ rfl rfl rfl (by intro sd h; cases h) hl

end Proc

/-- C26, what holds, whatever clients and maintenance do: everything an index search returns was stored and alive at some
moment of this history of the data set since its creation, and passes the filters.  Missing: that it still is (`C26_index_live_fails`). -/
theorem C26_index_live_partial (P : PEnv) (W : Bool) (E : Env) (c : DataConfig) (now : Int64)
    (ls : List Label) (s : PS) (h : exec P W (initial (Data.newData c) now) ls = some s) (vs : List Visit) (answer : List Nat)
    (q : Datum) (config : Option SearchConfig) (a : Annoyer) (dt' : Data) (out : Search.Collector) (ha : s.dt.annoyer = some a)
    (hne : a.dataIndex ≠ []) (hs : Search.searchAnnoy E vs answer s.dt q config = .ok (dt', out)) :
    ∀ sd ∈ out.list, Ref.Passes E.jsonHas (config.getD Search.defaultSearchConfig) sd.datum ∧
      WasLive P W (initial (Data.newData c) now) ls sd.datum := fun sd hsd =>
  ⟨(searchAnnoy_mem ha hne hs sd hsd).2, index_wasLive rfl rfl h a ha sd.datum (searchAnnoy_mem ha hne hs sd hsd).1⟩

/-- C26, what holds when nobody writes: what an index search returns is stored, or has expired, or was accepted by a
peer. -/
theorem C26_index_quiet_partial (P : PEnv) (E : Env) (dt : Data) (now : Int64) (hi : dt.initialized = true)
    (hwf : WF0 dt.dbMap) (hnone : dt.annoyer = none) (s : PS) (h : Reach P false (initial dt now) s) (vs : List Visit)
    (answer : List Nat) (q : Datum) (config : Option SearchConfig) (a : Annoyer) (dt' : Data) (out : Search.Collector)
    (ha : s.dt.annoyer = some a) (hne : a.dataIndex ≠ [])
    (hs : Search.searchAnnoy E vs answer s.dt q config = .ok (dt', out)) :
    ∀ sd ∈ out.list, ∃ k e, dt.dbMap.get? k = some e ∧ e.datum = sd.datum ∧
      (s.dt.dbMap.get? k = some e ∨ isExpired e s.now = true ∨ ∃ b ∈ s.acks, b.item.datum = sd.datum) := by
  intro sd hsd
  have hm := (searchAnnoy_mem ha hne hs sd hsd).1
  obtain ⟨k, e, hk, he⟩ := annoy_reach hi hwf (by intro a h; rw [hnone] at h; cases h) h a ha sd.datum hm
  refine ⟨k, e, hk, he, ?_⟩
  rcases (mapInv_reach hwf h).kept k e hk with h | h | ⟨b, hb, hd⟩
  · exact .inl h
  · exact .inr (.inl h)
  · exact .inr (.inr ⟨b, hb, hd.trans he⟩)

/-! ### C77 -/

/-- C77, full statement, in its weakest form: a maintenance run that has begun can still come to its end.  FALSE of the
code. -/
def C77_run_completes_statement : Prop :=
  ∀ (P : PEnv) (W : Bool) (c : DataConfig) (now : Int64) (s : PS), Reach P W (initial (Data.newData c) now) s →
    ∀ (j : Nat) (i : Inst), s.insts[j]? = some i → ∃ s' i', Reach P W s s' ∧ s'.insts[j]? = some i' ∧ i'.phase = .finished

namespace Proc

/-- Waiting to send to a queue that has no room and no reader. -/
def Stuck (i : Inst) : Prop := (∃ x, i.phase = .sending x) ∧ i.limit = 0 ∧ i.consumer = none

theorem stuck_forever {P : PEnv} {W : Bool} {s s' : PS} (h : Reach P W s s') {j : Nat} {i : Inst}
    (hj : s.insts[j]? = some i) (hi : Stuck i) : s'.insts[j]? = some i := by
  refine reach_inv (fun s => s.insts[j]? = some i) hj ?_ h
  intro s s' l _ ih hs
  have happ : ∀ x : Inst, (s.insts ++ [x])[j]? = some i := by
    intro x
    obtain ⟨hlt, _⟩ := List.getElem?_eq_some_iff.1 ih
    rw [List.getElem?_append_left hlt]; exact ih
  cases hs with
  | run _ _ => exact happ _
  | closeRun _ _ _ _ => exact happ _
  | @act j' i0 i' a dt' acks hj' hst =>
    simp only [List.getElem?_set]
    by_cases hjj : j' = j
    · subst hjj
      rw [ih] at hj'
      cases hj'
      obtain ⟨⟨x, hx⟩, hl, hc⟩ := hi
      cases hst with
      | purge hp => rw [hx] at hp; cases hp
      | meet hp => rw [hx] at hp; cases hp
      | offer hp => rw [hx] at hp; cases hp
      | skip hp => rw [hx] at hp; cases hp
      | send _ hlen => rw [hl] at hlen; exact absurd hlen (Nat.not_lt_zero _)
      | handover _ h => rw [hc] at h; cases h
      | endScan hp => rw [hx] at hp; cases hp
      | recv h => rw [hc] at h; cases h
      | evict h => rw [hc] at h; cases h
      | copy h => rw [hc] at h; cases h
      | pass h => rw [hc] at h; cases h
      | next h => rw [hc] at h; cases h
    · rw [if_neg hjj]; exact ih
  | _ => exact ih

/-- Not yet counted data, no sources, `Close` during the scan. -/
def exStuck : List Label :=
  [.write (exD 1 1) (some ⟨1000, 0⟩), .setSources [], .run (fun _ => none) [], .act 0 (.meet (exK 1)), .closeBegin,
   .act 0 (.offer 0)]

end Proc

theorem C77_run_completes_fails : ¬ C77_run_completes_statement := by
  intro h
  have ht : (exec softP true (exStart 0) exStuck).map (fun s => s.insts[0]?.map fun i => (i.phase, i.limit, i.consumer)) =
      some (some (.sending ⟨exD 1 1, ⟨1000, 1⟩⟩, 0, none)) := by decide +kernel
  obtain ⟨s, hr, hf⟩ := exec_reach ht
  cases hi : s.insts[0]? with
  | none => rw [hi] at hf; cases hf
  | some i =>
    rw [hi] at hf
    simp only [Option.map_some, Option.some.injEq, Prod.mk.injEq] at hf
    obtain ⟨h1, h2, h3⟩ := hf
    obtain ⟨s', i', hr', hi', hfin⟩ := h softP true _ _ s hr 0 i hi
    rw [stuck_forever hr' hi ⟨⟨_, h1⟩, h2, h3⟩] at hi'
    cases hi'
    rw [h1] at hfin
    cases hfin

namespace Proc

/-- Keys of the map that the scan has not come to. -/
def unseen (m : DBMap) (i : Inst) : Nat := (m.filter fun p => decide (p.1 ∉ i.seen)).length

/-- What is left to do for a run, counted in steps. -/
def work (m : DBMap) (i : Inst) : Nat :=
  unseen m i * (i.diffMap.length + 10) +
  (match i.phase with
    | .scanning => 1
    | .met _ => i.diffMap.length + 7
    | .sending _ => i.diffMap.length + 6
    | .finished => 0) +
  i.chan.length * (i.diffMap.length + 2) +
  (match i.consumer with
    | some ⟨some (_, rest), _, _⟩ => rest.length + 1
    | _ => 0)

theorem unseen_erase_le (m : DBMap) (k : Bytes) (i : Inst) : unseen (m.erase k) i ≤ unseen m i := by
  unfold unseen
  induction m with
  | nil => exact Nat.le_refl _
  | cons p m ih =>
    obtain ⟨k', e⟩ := p
    simp only [AMap.erase]
    split
    · rw [List.filter_cons]; split
      · simp only [List.length_cons]; omega
      · exact ih
    · rw [List.filter_cons, List.filter_cons]; split
      · simp only [List.length_cons]; omega
      · exact ih

theorem unseen_seen {m : DBMap} {k : Bytes} {e : Entry} {i : Inst} (hk : m.get? k = some e) (hs : k ∉ i.seen) (i' : Inst)
    (hi' : i'.seen = k :: i.seen) : unseen m i' + 1 ≤ unseen m i := by
  have hm := AMap.mem_of_get? hk
  unfold unseen
  rw [hi']
  clear hk
  have hle : ∀ m : DBMap, (m.filter fun p => decide (p.1 ∉ k :: i.seen)).length ≤ (m.filter fun p => decide (p.1 ∉ i.seen)).length := by
    intro m
    apply List.Sublist.length_le
    have : (m.filter fun p => decide (p.1 ∉ k :: i.seen)) = (m.filter fun p => decide (p.1 ∉ i.seen)).filter fun p => decide (p.1 ≠ k) := by
      rw [List.filter_filter]
      apply List.filter_congr
      intro p _
      simp only [List.mem_cons, not_or, Bool.decide_and]
    rw [this]
    exact List.filter_sublist
  induction m with
  | nil => cases hm
  | cons p m ih =>
    rcases List.mem_cons.1 hm with rfl | hm
    · rw [List.filter_cons, List.filter_cons, if_neg (by simp), if_pos (by simpa using hs)]
      simp only [List.length_cons]
      have := hle m
      omega
    · have := ih hm
      rw [List.filter_cons, List.filter_cons]
      by_cases h1 : p.1 ∈ i.seen
      · rw [if_neg (by simp [h1]), if_neg (by simp [h1])]; exact this
      · rw [if_pos (show decide (p.1 ∉ i.seen) = true by simpa using h1)]
        split
        · simp only [List.length_cons]; omega
        · simp only [List.length_cons]; omega

theorem work_erase_le (m : DBMap) (k : Bytes) (i : Inst) : work (m.erase k) i ≤ work m i := by
  have := Nat.mul_le_mul_right (i.diffMap.length + 10) (unseen_erase_le m k i)
  unfold work
  omega

theorem work_istep {P : PEnv} {W : Bool} {now : Int64} {dt dt' : Data} {acks acks' : List Ack} {i i' : Inst} {a : Act}
    (h : IStep P W now dt acks i a dt' acks' i') : work dt'.dbMap i' < work dt.dbMap i := by
  have hscan : ∀ (m : DBMap) (k : Bytes) (e : Entry) (i' : Inst), m.get? k = some e → k ∉ i.seen → i'.seen = k :: i.seen →
      unseen m i' * (i.diffMap.length + 10) + (i.diffMap.length + 10) ≤ unseen m i * (i.diffMap.length + 10) := by
    intro m k e i' hk hs hi'
    have := Nat.mul_le_mul_right (i.diffMap.length + 10) (unseen_seen hk hs i' hi')
    rw [Nat.add_mul, Nat.one_mul] at this
    exact this
  cases h with
  | @purge k e hp he hn hx =>
    have h1 := hscan dt.dbMap k e { i with seen := k :: i.seen } he hn rfl
    have h2 := work_erase_le dt.dbMap k { i with seen := k :: i.seen }
    refine Nat.lt_of_le_of_lt h2 ?_
    unfold work
    simp only [hp]
    show unseen dt.dbMap { i with seen := k :: i.seen } * _ + _ + _ + _ < _
    omega
  | @meet k e key hp he hn hx hk =>
    have h1 := hscan dt.dbMap k e { meetEntry P dt i e key with seen := k :: i.seen } he hn rfl
    unfold work
    simp only [hp, meetEntry]
    simp only [meetEntry] at h1
    omega
  | @offer rnd e hp _ _ _ _ =>
    unfold work; simp only [hp]
    show unseen dt.dbMap i * _ + _ + _ + _ < _
    omega
  | @skip rnd e hp _ _ _ =>
    unfold work; simp only [hp]
    show unseen dt.dbMap i * _ + _ + _ + _ < _
    omega
  | @send x hp hlen =>
    unfold work; simp only [hp, List.length_append, List.length_singleton, Nat.add_mul, Nat.one_mul]
    show unseen dt.dbMap i * _ + _ + _ + _ < _
    omega
  | @handover x c order hp hc hl hcur hperm =>
    obtain ⟨cur, cm, del⟩ := c
    simp only at hcur
    subst hcur
    have := hperm.length_eq
    unfold work; simp only [hp, hc]
    show unseen dt.dbMap i * _ + _ + _ + _ < _
    omega
  | endScan hp _ =>
    unfold work; simp only [hp]
    show unseen dt.dbMap i * _ + _ + _ + _ < _
    omega
  | @recv x xs c order hc hch hcur hperm =>
    obtain ⟨cur, cm, del⟩ := c
    simp only at hcur
    subst hcur
    have := hperm.length_eq
    unfold work; simp only [hc, hch, List.length_cons, Nat.add_mul, Nat.one_mul]
    show unseen dt.dbMap i * _ + _ + _ + _ < _
    omega
  | @evict c x id count rest k hc hcur _ _ _ _ =>
    obtain ⟨cur, cm, del⟩ := c
    simp only at hcur
    subst hcur
    have h2 := Nat.mul_le_mul_right (i.diffMap.length + 10) (unseen_erase_le dt.dbMap k i)
    unfold work; simp only [hc, List.length_cons]
    show unseen (dt.dbMap.erase k) i * _ + _ + _ + _ < _
    omega
  | @copy c x id count rest hc hcur _ _ _ _ =>
    obtain ⟨cur, cm, del⟩ := c
    simp only at hcur
    subst hcur
    unfold work; simp only [hc, List.length_cons]
    show unseen dt.dbMap i * _ + _ + _ + _ < _
    omega
  | @pass c x id count rest acc hc hcur =>
    obtain ⟨cur, cm, del⟩ := c
    simp only at hcur
    subst hcur
    unfold work; simp only [hc, List.length_cons]
    show unseen dt.dbMap i * _ + _ + _ + _ < _
    omega
  | @next c x hc hcur =>
    obtain ⟨cur, cm, del⟩ := c
    simp only at hcur
    subst hcur
    unfold work; simp only [hc]
    show unseen dt.dbMap i * _ + _ + _ + _ < _
    omega

/-- Is this a step of run `j`? -/
def isActOf (j : Nat) : Label → Bool
  | .act j' _ => j' == j
  | _ => false

theorem work_step {P : PEnv} {s s' : PS} {l : Label} (hs : step P false s l = some s') {j : Nat} {i : Inst}
    (hj : s.insts[j]? = some i) : ∃ i', s'.insts[j]? = some i' ∧
      work s'.dt.dbMap i' + (if isActOf j l then 1 else 0) ≤ work s.dt.dbMap i := by
  have happ : ∀ x : Inst, (s.insts ++ [x])[j]? = some i := by
    intro x
    obtain ⟨hlt, _⟩ := List.getElem?_eq_some_iff.1 hj
    rw [List.getElem?_append_left hlt]; exact hj
  have hdb : s.dt.initData.dbMap = s.dt.dbMap := Data.initData_dbMap _
  cases sstep_of hs with
  | setSources => exact ⟨i, hj, by simp only [isActOf]; rw [← hdb]; exact Nat.le_refl _⟩
  | run _ _ => exact ⟨i, happ _, Nat.le_refl _⟩
  | closeRun _ _ _ _ => exact ⟨i, happ _, Nat.le_refl _⟩
  | @act j' i0 i' a dt' acks hj' hst =>
    by_cases hjj : j' = j
    · subst hjj
      rw [hj] at hj'
      cases hj'
      obtain ⟨hlt, _⟩ := List.getElem?_eq_some_iff.1 hj
      refine ⟨i', by simp [List.getElem?_set, hlt], ?_⟩
      have := work_istep hst
      simp only [isActOf, beq_self_eq_true, if_true]
      exact this
    · refine ⟨i, by simp [List.getElem?_set, hjj, hj], ?_⟩
      have hb : (j' == j) = false := by simpa using hjj
      simp only [isActOf, hb, Bool.false_eq_true, if_false, Nat.add_zero]
      cases hst with
      | purge => exact work_erase_le _ _ _
      | evict => exact work_erase_le _ _ _
      | _ => exact Nat.le_refl _
  | write hW _ => cases hW
  | delete hW _ => cases hW
  | _ => exact ⟨i, hj, Nat.le_refl _⟩

theorem chan_le {P : PEnv} {W : Bool} {dt : Data} {now : Int64} {s : PS} (h : Reach P W (initial dt now) s) :
    ∀ i ∈ s.insts, i.chan.length ≤ i.sent.length := by
  refine reach_inv (fun s => ∀ i ∈ s.insts, i.chan.length ≤ i.sent.length) (by simp [initial]) ?_ h
  intro s s' l _ ih hs
  have hfresh : ∀ i : Inst, i.chan = [] → ∀ x ∈ s.insts ++ [i], x.chan.length ≤ x.sent.length := by
    intro i h0 x hx
    rcases List.mem_append.1 hx with hx | hx
    · exact ih x hx
    · rw [List.mem_singleton.1 hx, h0]; exact Nat.zero_le _
  cases hs with
  | run _ hf => exact hfresh _ hf.chan
  | closeRun _ _ _ hf => exact hfresh _ hf.chan
  | @act j i i' a dt' acks hj hst =>
    have hm := ih i (List.mem_of_getElem? hj)
    intro x hx
    rcases mem_set_list hx with rfl | hx
    · cases hst with
      | send => simp only [List.length_append, List.length_singleton]; omega
      | handover => simp only [List.length_append, List.length_singleton]; omega
      | recv _ hch => rw [hch, List.length_cons] at hm; simp only; omega
      | _ => exact hm
    · exact ih x hx
  | _ => exact ih

end Proc

/-- C77, what holds (1): when nobody writes, a run takes boundedly many steps, under every schedule, with every number of
other runs, and whatever the peers answer. -/
theorem C77_run_bounded_partial (P : PEnv) (s : PS) (j : Nat) (i : Inst) (hj : s.insts[j]? = some i) :
    ∀ (ls : List Label) (s' : PS), exec P false s ls = some s' → (ls.filter (isActOf j)).length ≤ work s.dt.dbMap i := by
  intro ls
  induction ls generalizing s i with
  | nil => intro s' _; exact Nat.zero_le _
  | cons l ls ih =>
    intro s' h
    simp only [exec] at h
    cases hs : step P false s l with
    | none => rw [hs] at h; cases h
    | some s1 =>
      rw [hs] at h
      obtain ⟨i1, hj1, hw⟩ := work_step hs hj
      have := ih s1 i1 hj1 s' h
      rw [List.filter_cons]
      split
      · rename_i hc
        rw [if_pos hc] at hw
        simp only [List.length_cons]
        omega
      · omega

/-- C77, what holds (2): a run that has a consumer (the last run had counted data), or whose data set is open, is never
stuck: as long as it has not come to its end it can take a step.  Missing: a run without a consumer when `Close` is called
during its scan (`C77_run_completes_fails`). -/
theorem C77_run_not_stuck_partial (P : PEnv) (dt : Data) (now : Int64) (hi : dt.initialized = true) (hwf : WF0 dt.dbMap)
    (s : PS) (h : Reach P false (initial dt now) s) (j : Nat) (i : Inst) (hj : s.insts[j]? = some i)
    (hnf : i.phase ≠ .finished) (hc : s.dt.alive = true ∨ i.consumer ≠ none) :
    ∃ a s', step P false s (.act j a) = some s' := by
  have hmi := mapInv_reach hwf h
  have hmem := List.mem_of_getElem? hj
  have hb := (basic_reach hi h).2.2 i hmem
  have go : ∀ a r, instStep P false s.now s.dt s.acks i a = some r → ∃ a s', step P false s (.act j a) = some s' := by
    intro a r hr
    obtain ⟨dt', acks, i'⟩ := r
    exact ⟨a, { s with dt := dt', acks := acks, insts := s.insts.set j i' }, by simp only [step, hj, hr]⟩
  cases hp : i.phase with
  | finished => exact absurd hp hnf
  | met e =>
    by_cases hcond : ((!s.dt.alive || (decide (i.counter < i.limit) && P.o.ltD 0 i.fraction)) &&
        decide ((insertConfigFromExpireAt s.now.toUInt64 e.expireAt.toUInt64).ttl > 10)) = true
    · exact go (.offer 0) _ (by simp only [instStep, hp]; rw [if_pos (by decide), if_pos hcond])
    · exact go (.offer 0) _ (by simp only [instStep, hp]; rw [if_pos (by decide), if_neg hcond])
  | scanning =>
    by_cases hall : s.dt.dbMap.all (fun p => i.seen.contains p.1) = true
    · exact go .endScan _ (by simp only [instStep, hp]; rw [if_pos (.inr hall)])
    · obtain ⟨p, hpm, hps⟩ : ∃ p ∈ s.dt.dbMap, p.1 ∉ i.seen := by
        apply Classical.byContradiction
        intro hno
        apply hall
        rw [List.all_eq_true]
        intro p hp
        have : p.1 ∈ i.seen := Classical.byContradiction fun hn => hno ⟨p, hp, hn⟩
        simpa using this
      have hg := AMap.get?_of_mem hmi.wf.nodup (show (p.1, p.2) ∈ s.dt.dbMap from hpm)
      obtain ⟨key, hkey, _⟩ := key_of_get? hmi.wf hg
      by_cases hx : isExpired p.2 s.now = true
      · exact go (.purge p.1) _ (by simp only [instStep, hp, hg]; rw [if_pos ⟨hps, hx⟩])
      · have hx : isExpired p.2 s.now = false := by simpa using hx
        exact go (.meet p.1) _ (by simp only [instStep, hp, hg]; rw [if_pos ⟨hps, hx⟩, hkey])
  | sending x =>
    by_cases hroom : i.chan.length < i.limit.toNat
    · exact go .send _ (by simp only [instStep, hp]; rw [if_pos hroom])
    · cases hcons : i.consumer with
      | none =>
        exfalso
        have ha := hc.resolve_right (by simp [hcons])
        obtain ⟨_, h2, h3⟩ := hb.budget ha
        have h4 := chan_le h i hmem
        have := h3 x hp
        omega
      | some c =>
        obtain ⟨cur, cm, del⟩ := c
        match cur, hcons with
        | none, hcons =>
          cases hch : i.chan with
          | nil =>
            have hl : i.limit = 0 := by
              rw [hch, List.length_nil] at hroom
              exact UInt64.toNat.inj (by have : (0 : UInt64).toNat = 0 := rfl; omega)
            exact go (.handover i.diffMap) _ (by
              simp only [instStep, hp, hcons]; rw [if_pos ⟨hl, trivial, List.isPerm_iff.2 (List.Perm.refl _)⟩])
          | cons y ys =>
            exact go (.recv i.diffMap) _ (by
              simp only [instStep, hcons, hch]; rw [if_pos ⟨trivial, List.isPerm_iff.2 (List.Perm.refl _)⟩])
        | some (y, []), hcons => exact go .next _ (by simp only [instStep, hcons]; rfl)
        | some (y, (id, count) :: rest), hcons =>
          exact go (.contact false) _ (by
            simp only [instStep, hcons, contact, Bool.and_false, Bool.false_eq_true, if_false]; rfl)

/-- C77 is not empty: a run with at most 12 steps ahead. -/
theorem C77_example : ∃ s i, Reach softP false (initial (exOne 2000) 1000) s ∧ s.insts[0]? = some i ∧ i.phase = .scanning ∧
    i.consumer ≠ none ∧ work s.dt.dbMap i = 12 := by
  have ht : (exec softP false (initial (exOne 2000) 1000) [.run (fun _ => some exInfo) ["a"]]).map (fun s =>
      s.insts[0]?.map fun i => (i.phase, i.consumer.isSome, work s.dt.dbMap i)) = some (some (.scanning, true, 12)) := by
    decide +kernel
  obtain ⟨s, hr, hf⟩ := exec_reach ht
  cases hi : s.insts[0]? with
  | none => rw [hi] at hf; cases hf
  | some i =>
    rw [hi] at hf
    simp only [Option.map_some, Option.some.injEq, Prod.mk.injEq] at hf
    exact ⟨s, i, hr, hi, hf.1, by intro h; rw [h] at hf; exact absurd hf.2.1 (by decide), hf.2.2⟩

end Veri
