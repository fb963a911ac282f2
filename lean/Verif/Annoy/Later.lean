import Verif.Annoy.SelfUse
import Verif.Process.IndexCover
/-
C197: what has been inserted is found by an index search after the next maintenance run.
-/
set_option autoImplicit false
namespace Veri
open Gencoder Proc Store Annoy Idx

namespace Proc

/-- The store of a data set is proper, whatever has happened. -/
theorem wf_step {n : Nat} {P : PEnv} {W : Bool} {s s' : PS} {l : Proc.Label} (hu : UInv n s) (h : WF0 s.dt.dbMap) (hl : GoodLabel n l)
    (hs : SStep P W s l s') : WF0 s'.dt.dbMap := by
  have hid : s.dt.initData = s.dt := Data.initData_of_initialized hu.init
  cases hs with
  | setSources => show WF0 s.dt.initData.dbMap; rw [hid]; exact h
  | @act j i i' a dt' acks hj hist =>
    cases hist with
    | purge => exact wf0_erase h _
    | evict => exact wf0_erase h _
    | endScan hp hall => simp only [finish]; exact h
    | _ => exact h
  | @write datum config out hW ho =>
    rcases insert_data_cases ho hu.init with ⟨_, hd, _⟩ | ⟨_, _, _, _, _, hd | ⟨k, v, x, hd⟩⟩
    · show WF0 out.data.dbMap; rw [hd]; exact h
    · show WF0 out.data.dbMap; rw [hd]; exact h
    · show WF0 out.data.dbMap; rw [hd]; exact wf0_set h k v x
  | @delete datum dt' hW ho =>
    have hm : ∃ k, dt'.dbMap = s.dt.dbMap.erase k := by
      unfold Data.delete deleteBDMap at ho
      simp only [Res.ofOption_some, Res.bind_eq, Res.bind_ok, Res.pure_eq] at ho
      cases hk : getKeyAsBytes datum with
      | none => rw [hk] at ho; cases ho
      | some k => rw [hk] at ho; cases ho; exact ⟨k, rfl⟩
    obtain ⟨k, hk⟩ := hm
    show WF0 dt'.dbMap
    rw [hk]
    exact wf0_erase h k
  | _ => exact h

theorem wf_exec {n : Nat} {P : PEnv} {W : Bool} : ∀ (ls : List Proc.Label) {s s' : PS}, UInv n s → WF0 s.dt.dbMap → (∀ l ∈ ls, GoodLabel n l) →
    Proc.exec P W s ls = some s' → UInv n s' ∧ WF0 s'.dt.dbMap := by
  intro ls
  induction ls with
  | nil => intro s s' hu h _ he; simp only [Proc.exec, Option.some.injEq] at he; exact he ▸ ⟨hu, h⟩
  | cons l ls ih =>
    intro s s' hu h hl he
    simp only [Proc.exec] at he
    cases hs : Proc.step P W s l with
    | none => simp [hs] at he
    | some t =>
      rw [hs] at he
      exact ih (uinv_step hu (hl l List.mem_cons_self) (sstep_of hs)) (wf_step hu h (hl l List.mem_cons_self) (sstep_of hs))
        (fun l h => hl l (List.mem_cons_of_mem _ h)) he

/-- What maintenance does alone, it may also do beside others. -/
theorem step_mono {P : PEnv} {s s' : PS} {l : Proc.Label} (h : step P false s l = some s') : step P true s l = some s' := by
  cases l with
  | act j a =>
    simp only [step] at h ⊢
    cases hj : s.insts[j]? with
    | none => rw [hj] at h; cases h
    | some i =>
      rw [hj] at h
      simp only at h ⊢
      have : ∀ r, instStep P false s.now s.dt s.acks i a = some r → instStep P true s.now s.dt s.acks i a = some r := by
        intro r hr
        cases a with
        | endScan =>
          simp only [instStep] at hr ⊢
          split at hr
          · split at hr
            · rename_i h1 h2
              rw [if_pos (.inl trivial)]
              exact hr
            · cases hr
          · cases hr
        | _ => exact hr
      cases hi : instStep P false s.now s.dt s.acks i a with
      | none => rw [hi] at h; cases h
      | some r => rw [hi] at h; rw [this r hi]; exact h
  | write d c => simp [step] at h
  | delete d => simp [step] at h
  | _ => exact h

theorem exec_append {P : PEnv} {W : Bool} (ls ls' : List Proc.Label) (s : PS) :
    exec P W s (ls ++ ls') = (exec P W s ls).bind fun s => exec P W s ls' := by
  induction ls generalizing s with
  | nil => rfl
  | cons l ls ih =>
    simp only [List.cons_append, exec]
    cases step P W s l with
    | none => rfl
    | some t => exact ih t

theorem exec_of_reach {n : Nat} {P : PEnv} {s s' : PS} (h : Reach P false s s') :
    ∃ ls, (∀ l ∈ ls, GoodLabel n l) ∧ exec P true s ls = some s' := by
  induction h with
  | refl => exact ⟨[], by simp, rfl⟩
  | @step t t' l _ hs ih =>
    obtain ⟨ls, h1, h2⟩ := ih
    refine ⟨ls ++ [l], ?_, by rw [exec_append, h2, Option.bind_some]; simp only [exec, step_mono hs, Option.bind_some]⟩
    intro l' hl'
    rcases List.mem_append.1 hl' with h | h
    · exact h1 l' h
    · rw [List.mem_singleton.1 h]
      cases l with
      | write d c => simp [step] at hs
      | _ => exact trivial

end Proc

/-- C197, full statement: data with vectors of one length are inserted, deleted, expire; then maintenance goes on, and a run ends in an open
data set.  An index search for the key of anything stored, which passes the filters, returns it, or as many as the limit that are as near.
FALSE of the code. -/
def C197_statement : Prop :=
  ∀ (n : Nat) (P : PEnv) (c : DataConfig) (now0 : Int64) (ls : List Proc.Label), (∀ l ∈ ls, GoodLabel n l) →
    ∀ (dt : Data) (now : Int64), Proc.exec P true (initial (Data.newData c) now0) ls = some (initial dt now) → dt.dbMap.length < 2^31 →
    ∀ (s0 s1 s s' : PS) (infos : SourceId → Option DataInfo) (order : List SourceId), Reach P false (initial dt now) s0 →
      step P false s0 (.run infos order) = some s1 → s0.insts.length < s1.insts.length → Reach P false s1 s →
      step P false s (.act s0.insts.length .endScan) = some s' → s'.dt.alive = true → s0.dt.n.toNat < 2^63 →
    ∀ (A : Lib), A.Ok → ZeroDot A → ∀ (k : Bytes) (e : Entry) (q : DatumKey), s'.dt.dbMap.get? k = some e → e.datum.key = some q →
    ∃ a, s'.dt.annoyer = some a ∧ (a.dataIndex.length < 2^31 → ∀ (fuel : Nat) (ix : Index), Idx.native A fuel a.items = .ok ix →
      ∀ (E : Env) (vs : List Visit) (qv : Option DatumValue) (config : SearchConfig),
        Ref.Passes E.jsonHas config e.datum → 0 < config.limit.toNat → config.limit.toNat < 2^31 →
        (∀ j d, datumAt a j = some d → F32.isNaN (distAt A a q.feature j) = false) →
        ∀ (fuel' : Nat) (answer : List Nat), 2 * ix.nItems * ix.roots.length ≤ fuel' →
          Idx.nativeAnswer A fuel' ix a.dataIndex.length q.feature config.limit = .ok answer →
          ∃ out, Search.searchAnnoy E vs answer s'.dt ⟨some q, qv⟩ (some config) = .ok (s'.dt, out) ∧ HasOrNear A q config e.datum out.list)

/-- C197: it does if the run reports at most 1000 data, or no more than had been reported when it began (C132), and the vector never comes
to a plane that it lies in on its way through the trees (C148). -/
theorem C197_partial (n : Nat) (P : PEnv) (c : DataConfig) (now0 : Int64) (ls : List Proc.Label) (hl : ∀ l ∈ ls, GoodLabel n l)
    (dt : Data) (now : Int64) (he : Proc.exec P true (initial (Data.newData c) now0) ls = some (initial dt now)) (hlen : dt.dbMap.length < 2^31)
    (s0 s1 s s' : PS) (infos : SourceId → Option DataInfo) (order : List SourceId) (h0 : Reach P false (initial dt now) s0)
    (hb : step P false s0 (.run infos order) = some s1) (hlt : s0.insts.length < s1.insts.length) (h1 : Reach P false s1 s)
    (hs : step P false s (.act s0.insts.length .endScan) = some s') (ha : s'.dt.alive = true) (hn : s0.dt.n.toNat < 2^63)
    (hfit : s'.dt.n.toNat ≤ 1000 ∨ s'.dt.n ≤ s0.dt.n)
    (A : Lib) (hA : A.Ok) (hz : ZeroDot A) (k : Bytes) (e : Entry) (q : DatumKey) (hk : s'.dt.dbMap.get? k = some e)
    (hq : e.datum.key = some q) :
    ∃ a, s'.dt.annoyer = some a ∧ (∃ j, datumAt a j = some e.datum) ∧
      (a.dataIndex.length < 2^31 → ∀ (fuel : Nat) (ix : Index), Idx.native A fuel a.items = .ok ix → Clear A ix q.feature →
      ∀ (E : Env) (vs : List Visit) (qv : Option DatumValue) (config : SearchConfig),
        Ref.Passes E.jsonHas config e.datum → 0 < config.limit.toNat → config.limit.toNat < 2^31 →
        (∀ j d, datumAt a j = some d → F32.isNaN (distAt A a q.feature j) = false) →
        ∀ (fuel' : Nat) (answer : List Nat), 2 * ix.nItems * ix.roots.length ≤ fuel' →
          Idx.nativeAnswer A fuel' ix a.dataIndex.length q.feature config.limit = .ok answer →
          ∃ out, Search.searchAnnoy E vs answer s'.dt ⟨some q, qv⟩ (some config) = .ok (s'.dt, out) ∧ HasOrNear A q config e.datum out.list) := by
  obtain ⟨hu, hwf⟩ := wf_exec (n := n) ls (s := initial (Data.newData c) now0)
    ⟨rfl, (by intro p hp; cases hp), (by intro i hi; cases hi), (by intro a ha; cases ha)⟩
    ⟨List.nodup_nil, by intro b e he; cases he⟩ hl he
  obtain ⟨met, m1, m2, m3, m4, -, m5⟩ := C132_index_covers_exact P dt now hu.init hwf (by omega) s0 s1 s s' infos order h0 hb hlt h1 hs ha (by omega)
  have hfind := C132_index_covers_partial P Search.exEnv dt now hu.init hwf (by omega) s0 s1 s s' infos order h0 hb hlt h1 hs ha (by omega) hfit k e hk
  have hr' : Reach P false (initial dt now) s' := .step _ (reach_trans (.step _ h0 hb) h1) hs
  obtain ⟨ls', hl', he'⟩ := exec_of_reach (n := n) hr'
  have hex : Proc.exec P true (initial (Data.newData c) now0) (ls ++ ls') = some s' := by rw [exec_append, he]; exact he'
  have hll : ∀ l ∈ ls ++ ls', GoodLabel n l := fun l h => (List.mem_append.1 h).elim (hl l) (hl' l)
  obtain ⟨a, _, _, _, hann, _⟩ := hfind
  have hmem : some e.datum ∈ a.dataIndex := by
    apply Classical.byContradiction
    intro hno
    exact not_findable (E := Search.exEnv) hann hno (C132_index_covers_partial P Search.exEnv dt now hu.init hwf (by omega) s0 s1 s s' infos order h0 hb hlt h1
      hs ha (by omega) hfit k e hk)
  obtain ⟨j, hj⟩ := List.getElem?_of_mem hmem
  have hd : datumAt a j = some e.datum := by unfold datumAt; rw [hj]; rfl
  refine ⟨a, hann, ⟨j, hd⟩, ?_⟩
  intro hsz fuel ix hix hc E vs qv config hp hpos hbig hnan fuel' answer hfuel hans
  exact C196_partial n P c now0 (ls ++ ls') hll s' hex a hann hsz A hA hz fuel ix hix E vs q qv config j e.datum hd hq hp hpos hbig hnan hc
    fuel' answer hfuel hans

namespace Idx

/-- The inserts of `exFive`. -/
def exIns (v : UInt32 → F32) : List Proc.Label := (exFive v).take 6

/-- The run of it, but for its end. -/
def exScan (v : UInt32 → F32) : List Proc.Label := ((exFive v).drop 7).take 10

/-- The states of the example: after the inserts, when the run has begun, before and after its end. -/
def exStates (v : UInt32 → F32) : Option (PS × PS × PS × PS) :=
  (Proc.exec softP true (exStart 0) (exIns v)).bind fun s0 => (step softP false s0 (.run (fun _ => some exInfo) ["a"])).bind fun s1 =>
    (Proc.exec softP false s1 (exScan v)).bind fun s => (step softP false s (.act 0 .endScan)).map fun s' => (s0, s1, s, s')

/-- What is to be known of the states. -/
structure ExRun where
  none : Nat × Nat × Bool
  stored : Nat
  begun : Nat
  alive : Bool
  counted : Nat × Nat
  entry : Option Entry
  length : Option Nat
  clean : Option Bool
  deriving DecidableEq

def exRun (v : UInt32 → F32) (k : DatumKey) : Option ExRun :=
  (exStates v).map fun (s0, s1, _, s') => ⟨(s0.insts.length, s0.acks.length, decide (s0.closer = .idle)), s0.dt.dbMap.length, s1.insts.length,
    s'.dt.alive, (s0.dt.n.toNat, s'.dt.n.toNat), s'.dt.dbMap.get? (encKey k), s'.dt.annoyer.map fun a => a.dataIndex.length,
    s'.dt.annoyer.map fun a => clean soft a k.feature⟩

/-- The search of the index that the run has made. -/
def exLater (A : Lib) (v : UInt32 → F32) (k : DatumKey) (limit : UInt32) : Option (Option (Out ExSearch)) :=
  (exStates v).map fun (_, _, _, s') => s'.dt.annoyer.map fun a => (Idx.native A 12 a.items).bind fun ix =>
    (Idx.nativeAnswer A 20 ix a.dataIndex.length k.feature limit).bind fun answer =>
      .ok ⟨ix.nItems, ix.roots.length, clearOf A ix k.feature, answer,
        hitsOf (Search.searchAnnoy Search.exEnv [] answer s'.dt ⟨some k, none⟩ (some { Search.defaultSearchConfig with limit := limit }))⟩

theorem exIns_good (v : UInt32 → F32) : ∀ l ∈ exIns v, GoodLabel 1 l := fun l hl => exFive_good v l (List.mem_of_mem_take hl)

/-- The datum with this key. -/
def exEntry (k : DatumKey) : Entry := ⟨0, ⟨some k, some (exVal 1)⟩⟩

theorem exStates_of {v : UInt32 → F32} {x : PS × PS × PS × PS} (h : exStates v = some x) :
    Proc.exec softP true (exStart 0) (exIns v) = some x.1 ∧ step softP false x.1 (.run (fun _ => some exInfo) ["a"]) = some x.2.1 ∧
    Reach softP false x.2.1 x.2.2.1 ∧ step softP false x.2.2.1 (.act 0 .endScan) = some x.2.2.2 := by
  unfold exStates at h
  obtain ⟨s0, h0, h⟩ := Option.bind_eq_some_iff.1 h
  obtain ⟨s1, h1, h⟩ := Option.bind_eq_some_iff.1 h
  obtain ⟨s, h2, h⟩ := Option.bind_eq_some_iff.1 h
  obtain ⟨s', h3, rfl⟩ := Option.map_eq_some_iff.1 h
  exact ⟨h0, h1, reach_exec _ .refl h2, h3⟩

end Idx

set_option maxRecDepth 100000 in
/-- C197, counterexample: the one of C196. -/
theorem C197_fails : ¬ C197_statement := by
  intro h
  have hr : exRun exOnly (exAt exOnly 2) = some ⟨(0, 0, true), 5, 1, true, (0, 5), some (exEntry (exAt exOnly 2)), some 1000, some true⟩ := by
    decide +kernel
  have ht : exLater soft exOnly (exAt exOnly 2) 3 = some (some (.ok ⟨5, 2, false, [0, 3, 4], some [⟨some (exAt exOnly 0), some (exVal 1)⟩,
      ⟨some (exAt exOnly 3), some (exVal 1)⟩, ⟨some (exAt exOnly 4), some (exVal 1)⟩]⟩)) := by decide +kernel
  obtain ⟨⟨s0, s1, s, s'⟩, hx, hr⟩ := Option.map_eq_some_iff.1 hr
  unfold exLater at ht
  rw [hx, Option.map_some] at ht
  simp only [ExRun.mk.injEq, Prod.mk.injEq, decide_eq_true_eq, Option.map_eq_some_iff] at hr
  obtain ⟨⟨r1, r2, r3⟩, r4, r5, r6, ⟨r7, -⟩, r8, ⟨a, ha, r9⟩, ⟨a', ha', r10⟩⟩ := hr
  rw [ha] at ha'
  injection ha' with ha'
  subst ha'
  obtain ⟨g0, g1, g2, g3⟩ := exStates_of hx
  have hs0 : s0 = initial s0.dt s0.now := by
    obtain ⟨dt, now, insts, acks, cl⟩ := s0
    rw [List.length_eq_zero_iff] at r1 r2
    simp only at r1 r2 r3
    subst r1 r2 r3
    rfl
  rw [hs0] at g0
  obtain ⟨a', ha', hh⟩ := h 1 softP (exCfg 0) 1000 (exIns exOnly) (exIns_good _) s0.dt s0.now g0 (by rw [r4]; decide) s0 s1 s s' (fun _ => some exInfo) ["a"]
    (by rw [← hs0]; exact .refl) g1 (by rw [r1, r5]; decide) g2 (by rw [r1]; exact g3) r6 (by rw [r7]; decide) soft soft_ok soft_zeroDot _ _ (exAt exOnly 2) r8 rfl
  rw [ha] at ha'
  injection ha' with ha'
  subst ha'
  simp only [ha, Option.map_some, Option.some.injEq] at ht
  obtain ⟨ix, hix, ht⟩ := Out.bind_ok ht
  obtain ⟨answer, hans, ht⟩ := Out.bind_ok ht
  simp only [Out.ok.injEq, ExSearch.mk.injEq] at ht
  obtain ⟨h4, h5, -, h6, h7⟩ := ht
  obtain ⟨out, ho, hn⟩ := hh (by rw [r9]; decide) 12 ix hix Search.exEnv [] none { Search.defaultSearchConfig with limit := 3 }
    ⟨(by intro f hf; cases hf), (by intro f hf; cases hf)⟩ (by decide) (by decide) (clean_of r10) 20 answer (by rw [h4, h5]; decide) hans
  rw [ho] at h7
  simp only [hitsOf, Option.some.injEq] at h7
  rcases hn with ⟨x, hx, hxd⟩ | ⟨-, hn⟩
  · have : x.datum ∈ out.list.map (·.datum) := List.mem_map.2 ⟨x, hx, rfl⟩
    rw [h7, hxd] at this
    revert this
    decide +kernel
  · have : (⟨some (exAt exOnly 0), some (exVal 1)⟩ : Datum) ∈ out.list.map (·.datum) := by rw [h7]; exact List.mem_cons_self
    obtain ⟨x, hx, hxd⟩ := List.mem_map.1 this
    obtain ⟨k, hk, hlt⟩ := hn x hx
    rw [hxd] at hk
    injection hk with hk
    subst hk
    revert hlt
    decide +kernel

set_option maxRecDepth 100000 in
/-- C197: the numbers 1, -1, 1, -1, 1 are inserted; a run reports five data and makes an index of two trees; a search for the key of the
fourth datum, for two results, returns it and the other one with that number. -/
theorem C197_example : (∀ l ∈ exIns exTurn, GoodLabel 1 l) ∧
    exRun exTurn (exAt exTurn 3) = some ⟨(0, 0, true), 5, 1, true, (0, 5), some (exEntry (exAt exTurn 3)), some 1000, some true⟩ ∧
    exLater soft exTurn (exAt exTurn 3) 2 = some (some (.ok ⟨5, 2, true, [1, 3], some [⟨some (exAt exTurn 1), some (exVal 1)⟩,
      ⟨some (exAt exTurn 3), some (exVal 1)⟩]⟩)) :=
  ⟨exIns_good _, by decide +kernel, by rw [← softSteps_eq]; decide +kernel⟩

end Veri
