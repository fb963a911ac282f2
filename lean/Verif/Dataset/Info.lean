import Verif.Dataset.Props
/-
C108: what the information on a data set shows of its configuration.  C109: what a node has after a restart.
-/
set_option autoImplicit false
namespace Veri
open DS

namespace DS

/-- The configuration that a client reads off the information on a data set: each field of `DataConfig` has a field of the
same name in `DataInfo` (veriservice.proto:100-126). -/
def shown (i : DataInfo) : DataConfig where
  name := i.name
  version := i.version
  targetN := i.targetN
  targetUtilization := i.targetUtilization
  noTarget := i.noTarget
  replicationOnInsert := i.replicationOnInsert
  enforceReplicationOnInsert := i.enforceReplicationOnInsert
  retention := i.retention

/-- node/nodeservice.go:221-229 `CreateDataIfNotExists`: the answer to the client. -/
def createInfo (X : XEnv) (now : Int) (m : DL) (c : DataConfig) : Res (DL × DataInfo) :=
  (getOrCreate X now m c).bind fun (m, dt) => dt.getDataInfo.bind fun i => .ok (m, i)

theorem getDataInfo_some {d : Data} {c : DataConfig} (h : d.config = some c) :
    ∃ i, d.getDataInfo = .ok i ∧ shown i = { c with replicationOnInsert := 0, enforceReplicationOnInsert := false, retention := 0 } := by
  refine ⟨_, by unfold Data.getDataInfo; rw [h], rfl⟩

end DS

/-! ### C108 -/

/-- C108, the claim in full: the information on a listed data set shows its configuration. -/
def C108_statement : Prop :=
  ∀ (X : XEnv) (now : Int) (m m' : DL) (name : String) (c : DataConfig) (i : DataInfo), WF m →
    liveConfig now m name = some c → getDataInfo X now m name = .ok (m', i) → shown i = c

/-- C108, exactly: a listed data set answers, the information shows its configuration without the number of replicas, whether
they are enforced, and the retention time, for which it shows zeros; asking changes nothing but the expiry time. -/
theorem C108_exact (X : XEnv) (now : Int) (m : DL) (name : String) (c : DataConfig) (hc : liveConfig now m name = some c) :
    ∃ m' i, getDataInfo X now m name = .ok (m', i) ∧
      shown i = { c with replicationOnInsert := 0, enforceReplicationOnInsert := false, retention := 0 } ∧
      ∀ k, (m'.get? k).map (·.data) = (m.get? k).map (·.data) := by
  unfold liveConfig at hc
  cases hl : lookup now m name with
  | none => rw [hl] at hc; cases hc
  | some s =>
    rw [hl] at hc
    have h0 : s.data.config = some c := hc
    obtain ⟨i, hi, hs⟩ := getDataInfo_some h0
    refine ⟨m.set name { s with expires := X.extend s.expires now (getRetention c.retention) }, i, ?_, hs, fun k => ?_⟩
    · unfold DS.getDataInfo
      rw [get_old hl h0]
      show (s.data.getDataInfo).bind _ = _
      rw [hi]
      rfl
    · by_cases hk : name = k
      · subst hk; rw [AMap.get?_set_self, (lookup_some.mp hl).1]; rfl
      · rw [AMap.get?_set_ne _ _ hk]

/-- C108, the configurations for which the claim holds. -/
theorem C108_partial (X : XEnv) (now : Int) (m m' : DL) (name : String) (c : DataConfig) (i : DataInfo)
    (hc : liveConfig now m name = some c) (hi : getDataInfo X now m name = .ok (m', i)) :
    shown i = c ↔ c.replicationOnInsert = 0 ∧ c.enforceReplicationOnInsert = false ∧ c.retention = 0 := by
  obtain ⟨m1, i1, h1, h2, _⟩ := C108_exact X now m name c hc
  rw [hi] at h1
  injection h1 with h1
  injection h1 with _ h1
  subst h1
  rw [h2]
  obtain ⟨a1, a2, a3, a4, a5, a6, a7, a8⟩ := c
  simp only [DataConfig.mk.injEq, true_and]
  constructor
  · rintro ⟨h, h', h''⟩; exact ⟨h.symm, h'.symm, h''.symm⟩
  · rintro ⟨h, h', h''⟩; exact ⟨h.symm, h'.symm, h''.symm⟩

/-- C108, the same for the answer to the request that creates a data set. -/
theorem C108_create (X : XEnv) (now : Int) (m : DL) (c : DataConfig) (h : lookup now m c.name = none) :
    ∃ m' i, createInfo X now m c = .ok (m', i) ∧ liveConfig now m c.name = none ∧ configOf m' c.name = some c ∧
      shown i = { c with replicationOnInsert := 0, enforceReplicationOnInsert := false, retention := 0 } := by
  have hl : lookup now (m.set c.name ⟨Data.newData c, expiry now (getRetention c.retention)⟩) c.name =
      some ⟨Data.newData c, expiry now (getRetention c.retention)⟩ := by
    rw [lookup_set_self, expiry_live]; rfl
  obtain ⟨i, hi, hs⟩ := getDataInfo_some (d := Data.newData c) (c := c) rfl
  refine ⟨AMap.set (m.set c.name ⟨Data.newData c, expiry now (getRetention c.retention)⟩) c.name
    ⟨Data.newData c, X.extend (expiry now (getRetention c.retention)) now (getRetention c.retention)⟩, i,
    ?_, ?_, ?_, hs⟩
  · unfold createInfo getOrCreate
    rw [create_new h]
    show ((get X now _ c.name).bind _) = _
    rw [get_old hl rfl]
    simp only [Res.bind, hi]
  · unfold liveConfig; rw [h]; rfl
  · unfold configOf; rw [AMap.get?_set_self]; rfl

/-- C108 fails already for the default configuration, which asks for one replica and enforces it. -/
theorem C108_fails : ¬ C108_statement := by
  intro h
  have hw : WF [("a", (⟨Data.newData (defaultConfig "a"), none⟩ : Slot))] :=
    DS.wf_set (c := defaultConfig "a") (k := "a") (s := ⟨Data.newData (defaultConfig "a"), none⟩) wf_nil rfl rfl
  have hc : liveConfig 0 [("a", (⟨Data.newData (defaultConfig "a"), none⟩ : Slot))] "a" = some (defaultConfig "a") := rfl
  obtain ⟨m', i, hi, hs, _⟩ := C108_exact (toy 0) 0 _ "a" _ hc
  have := h (toy 0) 0 _ m' "a" _ i hw hc hi
  rw [this] at hs
  exact absurd (congrArg DataConfig.replicationOnInsert hs) (by decide)

/-! ### C109 -/

namespace DS

/-- Every data set of the list satisfies `P`. -/
def AllData (P : Data → Prop) (m : DL) : Prop := ∀ p ∈ m, P p.2.data

/-- Holds of a new data set, and does not depend on the configuration. -/
structure KeptBy (P : Data → Prop) : Prop where
  new : ∀ c, P (Data.newData c)
  config : ∀ d c, P d → P { d with config := c }

variable {P : Data → Prop}

theorem allData_set {m : DL} {k : String} {s : Slot} (h : AllData P m) (hs : P s.data) : AllData P (m.set k s) := by
  intro p hp
  rcases (AMap.mem_set m k s p).1 hp with h' | ⟨h', _⟩
  · subst h'; exact hs
  · exact h p h'

theorem allData_sub {m m' : DL} (h : AllData P m) (hs : ∀ p ∈ m', p ∈ m) : AllData P m' := fun p hp => h p (hs p hp)

theorem allData_lookup {m : DL} (h : AllData P m) {now : Int} {k : String} {s : Slot} (hl : lookup now m k = some s) : P s.data :=
  h _ (AMap.mem_of_get? (lookup_some.mp hl).1)

theorem allData_create (hP : KeptBy P) {now : Int} {m m' : DL} {c : DataConfig} (h : AllData P m)
    (hc : createIfNotExists now m c = .ok m') : AllData P m' := by
  unfold createIfNotExists at hc
  cases hl : lookup now m c.name with
  | none =>
    rw [hl] at hc
    injection hc with hc
    subst hc
    exact allData_set h (hP.new c)
  | some s =>
    rw [hl] at hc
    cases h0 : s.data.config with
    | none => simp only [h0, Res.ofOption, Res.bind] at hc; cases hc
    | some c0 =>
      simp only [h0, Res.ofOption, Res.bind] at hc
      split at hc
      · injection hc with hc
        subst hc
        exact allData_set h (hP.config _ _ (allData_lookup h hl))
      · injection hc with hc
        subst hc
        exact h

theorem allData_touch {X : XEnv} {now : Int} {m m' : DL} {k : String} {s : Slot} {d : Data} (h : AllData P m) (hs : P s.data)
    (hc : touch X now m k s = .ok (m', d)) : AllData P m' := by
  unfold touch at hc
  cases h0 : s.data.config with
  | none => rw [h0] at hc; cases hc
  | some c0 =>
    rw [h0] at hc
    simp only [Res.ofOption, Res.bind] at hc
    injection hc with hc
    injection hc with hc _
    subst hc
    exact allData_set h hs

theorem allData_get (hP : KeptBy P) {X : XEnv} {now : Int} {m m' : DL} {k : String} {d : Data} (h : AllData P m)
    (hc : get X now m k = .ok (m', d)) : AllData P m' := by
  unfold get at hc
  cases hl : lookup now m k with
  | some s => rw [hl] at hc; exact allData_touch h (allData_lookup h hl) hc
  | none =>
    rw [hl] at hc
    cases hm : createIfNotExists now m (defaultConfig k) with
    | ok m1 =>
      simp only [hm, Res.bind] at hc
      have h1 := allData_create hP h hm
      cases hl1 : lookup now m1 k with
      | none => rw [hl1] at hc; cases hc
      | some s => rw [hl1] at hc; exact allData_touch h1 (allData_lookup h1 hl1) hc
    | err e => simp only [hm, Res.bind] at hc; cases hc
    | panic => simp only [hm, Res.bind] at hc; cases hc

theorem mem_eraseAll : ∀ (r : List String) (m : DL) (p : String × Slot), p ∈ r.foldl (fun m k => m.erase k) m → p ∈ m
  | [], _, _, h => h
  | k :: r, m, p, h => ((AMap.mem_erase m k p).1 (mem_eraseAll r (m.erase k) p h)).1

theorem allData_step (hP : KeptBy P) {X : XEnv} {s s' : DState} {l : Label} (h : AllData P s.list) (hs : step X s l = some s') :
    AllData P s'.list := by
  cases l with
  | tick now => simp only [step] at hs; split at hs <;> first | cases hs; done | (injection hs with hs; subst hs; exact h)
  | create c =>
    simp only [step] at hs
    cases hc : getOrCreate X s.now s.list c with
    | ok q =>
      rw [hc] at hs
      injection hs with hs
      subst hs
      unfold getOrCreate at hc
      cases h1 : createIfNotExists s.now s.list c with
      | ok m1 => rw [h1] at hc; exact allData_get hP (allData_create hP h h1) hc
      | err e => rw [h1] at hc; cases hc
      | panic => rw [h1] at hc; cases hc
    | err e => rw [hc] at hs; cases hs
    | panic => rw [hc] at hs; cases hs
  | use name =>
    simp only [step] at hs
    cases hc : get X s.now s.list name with
    | ok q => rw [hc] at hs; injection hs with hs; subst hs; exact allData_get hP h hc
    | err e => rw [hc] at hs; cases hs
    | panic => rw [hc] at hs; cases hs
  | delete name =>
    simp only [step] at hs
    cases hc : delete s.now s.list name with
    | ok m =>
      rw [hc] at hs; injection hs with hs; subst hs
      unfold delete at hc
      split at hc
      · injection hc with hc
        subst hc
        exact allData_sub h fun p hp => ((AMap.mem_erase _ _ p).1 hp).1
      · cases hc
    | err e => rw [hc] at hs; cases hs
    | panic => rw [hc] at hs; cases hs
  | janitor =>
    simp only [step] at hs
    injection hs with hs
    subst hs
    exact allData_sub h fun p hp => (List.mem_filter.mp hp).1
  | reload info order ks =>
    simp only [step] at hs
    cases hc : reloadRuns s.now info order ks s.list with
    | ok m =>
      rw [hc] at hs; injection hs with hs; subst hs
      unfold reloadRuns at hc
      cases hr : inactive s.now info order s.list ks with
      | ok r =>
        rw [hr] at hc
        simp only [Res.bind] at hc
        injection hc with hc
        subst hc
        exact allData_sub h (mem_eraseAll r _)
      | err e => rw [hr] at hc; cases hc
      | panic => rw [hr] at hc; cases hc
    | err e => rw [hc] at hs; cases hs
    | panic => rw [hc] at hs; cases hs
  | walkBegin save order => simp only [step] at hs; split at hs <;> first | cases hs; done | (injection hs with hs; subst hs; exact h)
  | walkOpen j =>
    simp only [step] at hs
    split at hs
    · split at hs <;> first | cases hs; done | (injection hs with hs; subst hs; exact h)
    · cases hs
  | walkStep j =>
    simp only [step] at hs
    split at hs
    · rename_i k ks save opened buf hw
      split at hs
      · cases hc : get X s.now s.list k with
        | ok q =>
          rw [hc] at hs
          obtain ⟨m, d⟩ := q
          simp only at hs
          split at hs
          · injection hs with hs; subst hs; exact allData_get hP h hc
          · cases hs
        | err e => rw [hc] at hs; cases hs
        | panic => rw [hc] at hs; cases hs
      · cases hs
    · cases hs
  | walkFlush j n =>
    simp only [step] at hs
    split at hs
    · split at hs <;> first | cases hs; done | (injection hs with hs; subst hs; exact h)
    · cases hs
  | loadBegin => simp only [step] at hs; split at hs <;> first | cases hs; done | (injection hs with hs; subst hs; exact h)
  | loadRead =>
    simp only [step] at hs
    split at hs
    · split at hs <;> first | cases hs; done | (injection hs with hs; subst hs; exact h)
    · cases hs
  | loadLine =>
    simp only [step] at hs
    split at hs
    · split at hs
      · split at hs
        · injection hs with hs; subst hs; exact h
        · rename_i c _
          cases hc : createIfNotExists s.now s.list c with
          | ok m => rw [hc] at hs; injection hs with hs; subst hs; exact allData_create hP h hc
          | err e => rw [hc] at hs; cases hs
          | panic => rw [hc] at hs; cases hs
      · cases hs
    · cases hs
  | loadEnd =>
    simp only [step] at hs
    split at hs
    · split at hs <;> first | cases hs; done | (injection hs with hs; subst hs; exact h)
    · cases hs

theorem allData_loadLines (hP : KeptBy P) {X : XEnv} {now : Int} : ∀ (ls : List Bytes) (m m' : DL), AllData P m →
    loadLines X now ls m = .ok m' → AllData P m'
  | [], m, m', h, hl => by unfold loadLines at hl; injection hl with hl; subst hl; exact h
  | l :: ls, m, m', h, hl => by
    unfold loadLines at hl
    split at hl
    · exact allData_loadLines hP ls m m' h hl
    · rename_i c _
      cases hc : createIfNotExists now m c with
      | ok m1 => rw [hc] at hl; exact allData_loadLines hP ls m1 m' (allData_create hP h hc) hl
      | err e => rw [hc] at hl; cases hl
      | panic => rw [hc] at hl; cases hl

/-- A data set without a datum: none in the map, none counted, none in an index. -/
def NoData (d : Data) : Prop := d.dbMap = [] ∧ d.n = 0 ∧ d.annoyer = none

theorem kept_noData : KeptBy NoData := ⟨fun _ => ⟨rfl, rfl, rfl⟩, fun _ _ h => h⟩

/-- The entry that a data set of the list has for a key. -/
def entryOf (m : DL) (name : String) (k : Bytes) : Option Entry := (m.get? name).bind fun s => s.data.dbMap.get? k

theorem entryOf_noData {m : DL} (h : AllData NoData m) (name : String) (k : Bytes) : entryOf m name k = none := by
  unfold entryOf
  cases hg : m.get? name with
  | none => rfl
  | some s =>
    have := (h _ (AMap.mem_of_get? hg)).1
    simp only [Option.bind_some]
    rw [this]
    rfl

end DS

/-- C109, the claim in full: a node that saved its index, stopped and loaded the index again has the data that it had, with
their expiry times. -/
def C109_statement : Prop :=
  ∀ (X : XEnv) (now now' : Int) (order : List String) (m m1 m2 : DL) (file : Bytes), X.Ok → WF m → order.Perm (names now m) →
    (∀ k c, liveConfig now m k = some c → Plain c) →
    saveIndex X now order m = .ok (m1, file) → loadIndex X now' file [] = .ok m2 →
    ∀ name k e, (lookup now m name).isSome = true → entryOf m name k = some e → entryOf m2 name k = some e

/-- C109, exactly: whatever is on disk, a node that starts has no datum; so it is until data are inserted again, whatever else
happens meanwhile (loading the index, requests that create, use, configure or delete data sets, saves, clean-ups, expiry). -/
theorem C109_nothing_stored (X : XEnv) (now : Int) (file : Bytes) (s : DState) (h : Reach X (fresh now file) s) (name : String)
    (k : Bytes) : entryOf s.list name k = none ∧ ∀ d, (lookup s.now s.list name).map (·.data) = some d → d.n = 0 := by
  have hA : AllData NoData s.list := by
    induction h with
    | refl => intro p hp; exact absurd hp (List.not_mem_nil)
    | step l _ hs ih => exact allData_step kept_noData ih hs
  refine ⟨entryOf_noData hA name k, fun d hd => ?_⟩
  cases hl : lookup s.now s.list name with
  | none => rw [hl] at hd; cases hd
  | some x =>
    rw [hl] at hd
    injection hd with hd
    subst hd
    exact (allData_lookup hA hl).2.1

/-- C109, the part that holds: the data sets come back with their configurations, and each of them is empty. -/
theorem C109_partial {X : XEnv} (hX : X.Ok) (now now' : Int) (m : DL) (order : List String) (hw : WF m)
    (ho : order.Perm (names now m)) (hp : ∀ k c, liveConfig now m k = some c → Plain c) :
    ∃ m1 file m2, saveIndex X now order m = .ok (m1, file) ∧ loadIndex X now' file [] = .ok m2 ∧
      (∀ k, liveConfig now' m2 k = liveConfig now m k) ∧ ∀ name k, entryOf m2 name k = none := by
  obtain ⟨m1, file, m2, h1, h2, _, h3⟩ := C51_restore_finite_partial hX now now' m order hw ho hp
  refine ⟨m1, file, m2, h1, h2, h3, fun name k => entryOf_noData ?_ name k⟩
  exact allData_loadLines kept_noData _ _ _ (by intro p hp; cases hp) h2

namespace DS

/-- A data set with one datum that never expires. -/
def exOne : Data := { Data.newData (exA 1) with n := 1, dbMap := [([1], ⟨0, exDatum⟩)] }

def exOneList : DL := [("a", ⟨exOne, none⟩)]

theorem exOne_wf : WF exOneList := DS.wf_set (c := exA 1) (k := "a") (s := ⟨exOne, none⟩) wf_nil rfl rfl

theorem exOne_plain (k : String) (c : DataConfig) (h : liveConfig 0 exOneList k = some c) : Plain c := by
  unfold liveConfig at h
  cases hl : lookup 0 exOneList k with
  | none => rw [hl] at h; cases h
  | some s =>
    rw [hl] at h
    have hm := AMap.mem_of_get? (lookup_some.mp hl).1
    simp only [exOneList, List.mem_cons, Prod.mk.injEq, List.not_mem_nil, or_false] at hm
    obtain ⟨rfl, rfl⟩ := hm
    cases h
    exact ⟨by decide, by decide⟩

end DS

/-- C109 fails for every datum; here one without expiry. -/
theorem C109_fails : ¬ C109_statement := by
  intro h
  obtain ⟨m1, file, m2, h1, h2, _, h3⟩ := C109_partial (toy_ok 0) 0 0 exOneList ["a"] exOne_wf (by decide) exOne_plain
  have := h (toy 0) 0 0 ["a"] exOneList m1 m2 file (toy_ok 0) exOne_wf (by decide) exOne_plain h1 h2 "a" [1] ⟨0, exDatum⟩
    (by decide) (by decide)
  rw [h3] at this
  cases this

/-- C109, an instance of the partial theorem: the data set "a" is listed again with its configuration. -/
example : ∃ m1 file m2, saveIndex (toy 0) 0 ["a"] exOneList = .ok (m1, file) ∧ loadIndex (toy 0) 100 file [] = .ok m2 ∧
    liveConfig 100 m2 "a" = some (exA 1) ∧ entryOf exOneList "a" [1] = some ⟨0, exDatum⟩ ∧ entryOf m2 "a" [1] = none := by
  obtain ⟨m1, file, m2, h1, h2, h3, h4⟩ := C109_partial (toy_ok 0) 0 100 exOneList ["a"] exOne_wf (by decide) exOne_plain
  exact ⟨m1, file, m2, h1, h2, by rw [h3]; decide, by decide, h4 _ _⟩

end Veri
