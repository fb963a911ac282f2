import Verif.Dataset.Toy
import Verif.Vector.Value
/-
Properties of the list of data sets: C49-C55 (sequential parts).
-/
set_option autoImplicit false
namespace Veri
open DS

/-! ### C49 -/

namespace DS
/-- A sequence of create requests, each with the time it is served. -/
def creates : List (Int × DataConfig) → DL → Res DL
  | [], m => .ok m
  | (now, c) :: rs, m => (createIfNotExists now m c).bind fun m => creates rs m
end DS

/-- C49: creating a data set that exists keeps everything but the configuration, which is replaced exactly when the new
version is higher; other data sets are untouched. -/
theorem C49_create (now : Int) (m : DL) (c c0 : DataConfig) (s : Slot) (h : lookup now m c.name = some s)
    (h0 : s.data.config = some c0) :
    ∃ m', createIfNotExists now m c = .ok m' ∧
      m'.get? c.name = some { s with data := { s.data with config := some (if c0.version < c.version then c else c0) } } ∧
      ∀ k, k ≠ c.name → m'.get? k = m.get? k := by
  refine ⟨_, create_old h h0, ?_⟩
  by_cases hv : c.version > c0.version
  · rw [if_pos hv, if_pos hv]
    exact ⟨AMap.get?_set_self _ _ _, fun k hk => AMap.get?_set_ne _ _ hk.symm⟩
  · rw [if_neg hv, if_neg hv]
    refine ⟨?_, fun k _ => rfl⟩
    rw [(lookup_some.mp h).1, ← h0]

/-- C49: over any sequence of create requests while the data set is live, its data is kept and its version is the highest
of its first version and those asked for; its configuration is the first one or one that was asked for. -/
theorem C49_sequence (name : String) : ∀ (rs : List (Int × DataConfig)) (m : DL) (s : Slot) (c0 : DataConfig), WF m →
    m.get? name = some s → s.data.config = some c0 → (∀ r ∈ rs, live r.1 s = true) →
    ∃ m' c', creates rs m = .ok m' ∧ m'.get? name = some { s with data := { s.data with config := some c' } } ∧
      c'.version.toNat = ((rs.map (·.2)).filter (·.name = name)).foldl (fun v c => max v c.version.toNat) c0.version.toNat ∧
      (c' = c0 ∨ c' ∈ rs.map (·.2))
  | [], m, s, c0, _, hs, h0, _ => ⟨m, c0, rfl, by rw [hs, ← h0], rfl, Or.inl rfl⟩
  | (now, c) :: rs, m, s, c0, hw, hs, h0, hl => by
    obtain ⟨m1, h1, h2, h3, h4⟩ := create_ok (now := now) hw c
    by_cases hc : c.name = name
    · have hlk : lookup now m c.name = some s := lookup_some.mpr ⟨by rw [hc]; exact hs, hl (now, c) (by simp)⟩
      obtain ⟨m2, g1, g2, g3⟩ := C49_create now m c c0 s hlk h0
      rw [h1] at g1
      injection g1 with g1
      subst g1
      rw [hc] at g2
      obtain ⟨m', c', k1, k2, k3, k4⟩ := C49_sequence name rs m1 _ _ h2 g2 rfl (fun r hr => hl r (by simp [hr]))
      refine ⟨m', c', ?_, k2, ?_, ?_⟩
      · simp only [creates, h1, Res.bind]; exact k1
      · rw [k3]
        simp only [List.map_cons, List.filter_cons, hc, decide_true, if_true, List.foldl_cons]
        congr 1
        by_cases hv : c0.version < c.version
        · have := UInt64.lt_iff_toNat_lt.mp hv
          rw [if_pos hv, Nat.max_eq_right (by omega)]
        · have : ¬ c0.version.toNat < c.version.toNat := fun e => hv (UInt64.lt_iff_toNat_lt.mpr e)
          rw [if_neg hv, Nat.max_eq_left (by omega)]
      · rcases k4 with k4 | k4
        · split at k4
          · exact Or.inr (by simp [k4])
          · exact Or.inl k4
        · exact Or.inr (by simp only [List.map_cons]; exact List.mem_cons_of_mem _ k4)
    · have hs1 : m1.get? name = some s := by rw [h4 name (Ne.symm hc)]; exact hs
      obtain ⟨m', c', k1, k2, k3, k4⟩ := C49_sequence name rs m1 s c0 h2 hs1 h0 (fun r hr => hl r (by simp [hr]))
      refine ⟨m', c', ?_, k2, ?_, ?_⟩
      · simp only [creates, h1, Res.bind]; exact k1
      · rw [k3]
        simp [hc]
      · exact k4.imp_right (fun h => by simp only [List.map_cons]; exact List.mem_cons_of_mem _ h)

/-- C49: creating twice is creating once. -/
theorem C49_idempotent (now : Int) (m m' : DL) (c : DataConfig) (hw : WF m) (h : createIfNotExists now m c = .ok m') :
    createIfNotExists now m' c = .ok m' := by
  cases hl : lookup now m c.name with
  | none =>
    rw [create_new hl] at h
    injection h with h
    subst h
    rw [create_old (c0 := c) (s := ⟨Data.newData c, expiry now (getRetention c.retention)⟩)
      (by rw [lookup_set_self, expiry_live]; rfl) rfl, if_neg (UInt64.lt_irrefl _)]
  | some s =>
    obtain ⟨c0, h0, _⟩ := hw.2 _ _ (lookup_some.mp hl).1
    have h' := h
    rw [create_old hl h0] at h'
    injection h' with h'
    by_cases hv : c.version > c0.version
    · rw [if_pos hv] at h'
      subst h'
      rw [create_old (c0 := c) (s := { s with data := { s.data with config := some c } })
        (by
          rw [lookup_set_self]
          have : live now { s with data := { s.data with config := some c } } = live now s := rfl
          rw [this, (lookup_some.mp hl).2]; rfl) rfl, if_neg (UInt64.lt_irrefl _)]
    · rw [if_neg hv] at h'
      subst h'
      exact h

namespace DS
def exA (v : UInt64) : DataConfig := ⟨"a", v, 0, 0, false, 1, true, 60⟩
def exB : DataConfig := ⟨"b", 0, 0, 0, false, 1, true, 60⟩
/-- Two data sets, created at time 0. -/
def exList : DL := [("b", ⟨Data.newData exB, some (60 * second)⟩), ("a", ⟨Data.newData (exA 1), some (60 * second)⟩)]

theorem exList_wf : WF exList := by
  refine ⟨by unfold AMap.Nodup; decide, fun k s h => ?_⟩
  have hm := AMap.mem_of_get? h
  simp only [exList, List.mem_cons, Prod.mk.injEq, List.not_mem_nil, or_false] at hm
  rcases hm with ⟨rfl, rfl⟩ | ⟨rfl, rfl⟩
  · exact ⟨exB, rfl, rfl⟩
  · exact ⟨exA 1, rfl, rfl⟩
end DS

/-- C49, an instance: versions 3, 2 and 5 asked for, 5 is the result, the other data set is created on the way. -/
example : ∃ m' c', creates [(1, exA 3), (2, exB), (5, exA 2), (7, exA 5)] exList = .ok m' ∧
    m'.get? "a" = some ⟨{ Data.newData (exA 1) with config := some c' }, some (60 * second)⟩ ∧ c'.version.toNat = 5 := by
  obtain ⟨m', c', h1, h2, h3, _⟩ := C49_sequence "a" [(1, exA 3), (2, exB), (5, exA 2), (7, exA 5)] exList _ _ exList_wf rfl rfl
    (by decide)
  exact ⟨m', c', h1, h2, h3.trans (by decide)⟩

/-! ### C50 -/

/-- C50: a search on an unknown name is refused; there is no new list. -/
theorem C50_search_unknown {α : Type} (now : Int) (m : DL) (name : String) (f : Data → Res (Data × α))
    (h : lookup now m name = none) : search now m name f = .err .notExist := by
  unfold search getNoCreate
  rw [h]
  rfl

/-- C50: a search that is served lists the same data sets. -/
theorem C50_search_known {α : Type} (now : Int) (m m' : DL) (name : String) (f : Data → Res (Data × α)) (a : α)
    (h : search now m name f = .ok (m', a)) (t : Int) (k : String) :
    (lookup t m' k).isSome = (lookup t m k).isSome := by
  unfold search at h
  cases hg : getNoCreate now m name with
  | err e => rw [hg] at h; exact absurd h (by simp [Res.bind])
  | panic => rw [hg] at h; exact absurd h (by simp [Res.bind])
  | ok dt =>
    rw [hg] at h
    simp only [Res.bind] at h
    cases hf : f dt with
    | err e => rw [hf] at h; exact absurd h (by simp)
    | panic => rw [hf] at h; exact absurd h (by simp)
    | ok r =>
      rw [hf] at h
      simp only at h
      cases hs : m.get? name with
      | none => rw [hs] at h; exact absurd h (by simp)
      | some s =>
        rw [hs] at h
        simp only [Res.ok.injEq, Prod.mk.injEq] at h
        rw [← h.1]
        by_cases hk : name = k
        · subst hk
          rw [lookup_set_self]
          unfold lookup
          rw [hs]
          have : live t { s with data := r.1 } = live t s := rfl
          rw [this]
          cases hl : live t s <;> simp [Option.filter, hl]
        · rw [lookup_set_ne hk]

namespace DS
theorem retention_pos : 0 < getRetention 0 := by decide

/-- `Get` on an unknown name: it is listed afterwards, with the default configuration. -/
theorem get_creates {X : XEnv} (hX : X.Ok) {now : Int} {m : DL} {name : String} (h : lookup now m name = none) :
    ∃ m' e, get X now m name = .ok (m', Data.newData (defaultConfig name)) ∧
      m'.get? name = some ⟨Data.newData (defaultConfig name), some e⟩ ∧ now + getRetention 0 ≤ e ∧
      ∀ k, k ≠ name → m'.get? k = m.get? k := by
  obtain ⟨e, h1, h2, _⟩ := hX.extend (now + getRetention 0) now (getRetention 0) (by have := retention_pos; omega) retention_pos
  have hx : expiry now (getRetention 0) = some (now + getRetention 0) := by
    have := retention_pos
    unfold expiry
    rw [if_neg (by omega), if_pos this]
  refine ⟨_, e, get_new h, ?_, h2, fun k hk => ?_⟩
  · rw [AMap.get?_set_self, hx, h1]
  · rw [AMap.get?_set_ne _ _ hk.symm, AMap.get?_set_ne _ _ hk.symm]

theorem insert_config {σ : Type} {now : Int64} {order : List SourceId} {call : Data.RemoteInsert σ} {dt : Data} {w : σ}
    {datum : Option Datum} {config : Option InsertConfig} {out : Data.InsertOut σ}
    (h : Data.insert now order call dt w datum config = .ok out) : out.data.config = dt.config := by
  rcases Data.insert_cases now order call dt w datum config out h with ⟨_, rfl⟩ | ⟨_, d, dc, m, b, _, _, _, hd, _⟩
  · rfl
  · rw [hd]; exact Data.initData_config dt
end DS

/-- C50: an info request on an unknown name creates the data set with the default configuration, and describes it. -/
theorem C50_info_creates {X : XEnv} (hX : X.Ok) (now : Int) (m : DL) (name : String) (h : lookup now m name = none) :
    ∃ m' i, getDataInfo X now m name = .ok (m', i) ∧ i.name = name ∧ i.targetN = 1000 ∧ i.version = 0 ∧ i.n = 0 ∧
      liveConfig now m' name = some (defaultConfig name) ∧ ∀ k, k ≠ name → m'.get? k = m.get? k := by
  obtain ⟨m', e, h1, h2, h3, h4⟩ := get_creates hX h
  obtain ⟨i, i1, i2, i3, i4, i5⟩ : ∃ i, (Data.newData (defaultConfig name)).getDataInfo = .ok i ∧ i.name = name ∧
      i.targetN = 1000 ∧ i.version = 0 ∧ i.n = 0 := ⟨_, rfl, rfl, rfl, rfl, rfl⟩
  refine ⟨m', i, ?_, i2, i3, i4, i5, ?_, h4⟩
  · unfold getDataInfo
    rw [h1]
    simp only [Res.bind, i1]
  · unfold liveConfig
    rw [lookup_some.mpr ⟨h2, by have := retention_pos; simp only [live, decide_eq_true_eq]; omega⟩]
    rfl

/-- C50: an insert on an unknown name, served by a node that is not draining, creates the data set with the default
configuration (whether the insert itself is acknowledged or not); on a draining node it is refused and changes nothing. -/
theorem C50_insert_creates {σ : Type} {X : XEnv} (hX : X.Ok) (drain : Bool) (now : Int) (nowS : Int64) (order : List SourceId)
    (call : Data.RemoteInsert σ) (m m' : DL) (w w' : σ) (name : String) (datum : Option Datum) (config : Option InsertConfig)
    (e : Option Err) (h : lookup now m name = none)
    (hi : DS.insert X drain now nowS order call m w name datum config = .ok (m', w', e)) :
    (drain = true → m' = m ∧ w' = w ∧ e = some .drain) ∧
    (drain = false → liveConfig now m' name = some (defaultConfig name) ∧ ∀ k, k ≠ name → m'.get? k = m.get? k) := by
  unfold DS.insert at hi
  constructor
  · rintro rfl
    simp only [if_true, Res.ok.injEq, Prod.mk.injEq] at hi
    exact ⟨hi.1.symm, hi.2.1.symm, hi.2.2.symm⟩
  · rintro rfl
    obtain ⟨m1, ex, h1, h2, h3, h4⟩ := get_creates hX h
    simp only [Bool.false_eq_true, if_false, h1, Res.bind] at hi
    cases hd : Data.insert nowS order call (Data.newData (defaultConfig name)) w datum config with
    | err e => rw [hd] at hi; exact absurd hi (by simp)
    | panic => rw [hd] at hi; exact absurd hi (by simp)
    | ok out =>
      rw [hd] at hi
      simp only [h2, Res.ok.injEq, Prod.mk.injEq] at hi
      rw [← hi.1]
      constructor
      · unfold liveConfig
        rw [lookup_set_self]
        have : live now ⟨out.data, some ex⟩ = true := by
          have := retention_pos
          simp only [live, decide_eq_true_eq]; omega
        rw [if_pos this]
        exact insert_config hd
      · intro k hk
        rw [AMap.get?_set_ne _ _ hk.symm]
        exact h4 k hk

/-- C50, the default configuration: version 0, a target of 1000 data at a utilization of 0.4 (rounded to a float64), the target in force, one
replica enforced on insert, and the default retention. -/
theorem C50_defaults (name : String) : ∃ c, defaultConfig name = c ∧ c.name = name ∧ c.version = 0 ∧ c.targetN = 1000 ∧
    (2/5 - 1/2^54 : Rat) ≤ Ref.binary64 c.targetUtilization ∧ Ref.binary64 c.targetUtilization ≤ 2/5 + 1/2^54 ∧
    c.noTarget = false ∧ c.replicationOnInsert = 1 ∧ c.enforceReplicationOnInsert = true ∧ c.retention = 0 ∧
    getRetention c.retention = 14 * 24 * 60 * 60 * 1000000000 :=
  ⟨_, rfl, rfl, rfl, rfl, by show _ ≤ Ref.binary64 0x3FD999999999999A; decide +kernel,
    by show Ref.binary64 0x3FD999999999999A ≤ _; decide +kernel, rfl, rfl, rfl, rfl, rfl⟩

namespace DS
/-- An insert into the empty list: acknowledged, and one data set listed. -/
def exInsert : Option (List String × Option Err) :=
  match DS.insert (toy 0) false 0 1000 [] (fun _ _ _ (w : Unit) => (w, none)) [] () "x"
    (some ⟨some (Store.exKey 1), some (Store.exVal 1)⟩) (some ⟨60, 0⟩) with
  | .ok (m, _, e) => some (names 0 m, e)
  | _ => none
end DS

/-- C50, an instance. -/
example : exInsert = some (["x"], none) := by decide +kernel

/-! ### C51 -/

/-- C51, the claim in full. -/
def C51_restore_statement : Prop :=
  ∀ (X : XEnv) (now now' : Int) (m : DL) (order : List String), X.Ok → WF m → order.Perm (names now m) →
    (∀ k c, liveConfig now m k = some c → NoNegZero c) →
    ∃ m1 file m2, saveIndex X now order m = .ok (m1, file) ∧ loadIndex X now' file [] = .ok m2 ∧
      m2.Nodup ∧ ∀ k, liveConfig now' m2 k = liveConfig now m k

/-- C51, what holds: exactly the configurations of the live data sets whose utilization is a number are restored, each once;
saving itself changes nothing but expiry times. -/
theorem C51_restore_partial {X : XEnv} (hX : X.Ok) (now now' : Int) (m : DL) (order : List String) (hw : WF m)
    (ho : order.Perm (names now m)) (hz : ∀ k c, liveConfig now m k = some c → NoNegZero c) :
    ∃ m1 file m2, saveIndex X now order m = .ok (m1, file) ∧ loadIndex X now' file [] = .ok m2 ∧ m2.Nodup ∧
      (∀ k, (m1.get? k).map (·.data) = (m.get? k).map (·.data)) ∧
      ∀ k, liveConfig now' m2 k = (liveConfig now m k).filter fun c => decide (Finite c) := by
  obtain ⟨m1, cs, h1, h2, h3, h4, h5⟩ := walk_spec (X := X) now order m hw (ho.nodup_iff.mpr (nodup_names hw.1))
    (fun k hk => (mem_names hw.1).mp (ho.mem_iff.mp hk))
  have hz' : ∀ c ∈ cs, NoNegZero c := fun c hc => hz _ c (h4 c hc)
  obtain ⟨m2, g1, g2, g3⟩ := loadLines_spec hX now' cs [] wf_nil hz'
    (by rw [h3]; exact ho.nodup_iff.mpr (nodup_names hw.1)) (by simp)
  refine ⟨m1, content X cs, m2, ?_, ?_, g2.1, h5, fun k => ?_⟩
  · unfold saveIndex; rw [h1]; rfl
  · unfold loadIndex; rw [readLines_content hX hz']; exact g1
  · have hfind : cs.find? (fun c => c.name = k ∧ Finite c) = (liveConfig now m k).filter fun c => decide (Finite c) := by
      cases hf : cs.find? (fun c => c.name = k ∧ Finite c) with
      | some c =>
        have hm := List.mem_of_find?_eq_some hf
        have hp := List.find?_some hf
        simp only [decide_eq_true_eq] at hp
        have := h4 c hm
        rw [hp.1] at this
        rw [this]
        simp [Option.filter, hp.2]
      | none =>
        rw [List.find?_eq_none] at hf
        cases hl : liveConfig now m k with
        | none => rfl
        | some c =>
          unfold liveConfig at hl
          cases hs : lookup now m k with
          | none => rw [hs] at hl; exact absurd hl (by simp)
          | some s =>
            rw [hs] at hl
            simp only [Option.bind_some] at hl
            have hk : k ∈ order := ho.mem_iff.mpr ((mem_names hw.1).mpr (by rw [hs]; rfl))
            rw [← h3] at hk
            obtain ⟨c', hc', hn⟩ := List.mem_map.mp hk
            have h6 := h4 c' hc'
            rw [hn] at h6
            unfold liveConfig at h6
            rw [hs] at h6
            simp only [Option.bind_some] at h6
            rw [hl] at h6
            injection h6 with h6
            subst h6
            have := hf c hc'
            simp only [hn, true_and, decide_eq_true_eq] at this
            simp [Option.filter, this]
    rw [← hfind]
    unfold liveConfig lookup
    rw [g3 k]
    cases hf : cs.find? (fun c => c.name = k ∧ Finite c) with
    | none => rfl
    | some c =>
      simp only [Option.filter, expiry_live, if_true, Option.bind_some]
      rfl

/-- C51, when every utilization is a number, the claim holds as it stands. -/
theorem C51_restore_finite_partial {X : XEnv} (hX : X.Ok) (now now' : Int) (m : DL) (order : List String) (hw : WF m)
    (ho : order.Perm (names now m)) (hp : ∀ k c, liveConfig now m k = some c → Plain c) :
    ∃ m1 file m2, saveIndex X now order m = .ok (m1, file) ∧ loadIndex X now' file [] = .ok m2 ∧
      m2.Nodup ∧ ∀ k, liveConfig now' m2 k = liveConfig now m k := by
  obtain ⟨m1, file, m2, h1, h2, h3, _, h4⟩ := C51_restore_partial hX now now' m order hw ho (fun k c h => (hp k c h).2)
  refine ⟨m1, file, m2, h1, h2, h3, fun k => ?_⟩
  rw [h4 k]
  cases hl : liveConfig now m k with
  | none => rfl
  | some c =>
    have : Finite c := (hp k c hl).1
    simp [Option.filter, this]

/-- C51, counterexample: a client may set the utilization to not-a-number; the data set is then lost with a restart. -/
theorem C51_restore_fails : ¬ C51_restore_statement := by
  intro h
  let c : DataConfig := ⟨"a", 0, 0, 0x7FF8000000000001, false, 1, true, 60⟩
  let m : DL := [("a", ⟨Data.newData c, none⟩)]
  have hw : WF m := wf_set (c := c) (k := "a") (s := ⟨Data.newData c, none⟩) wf_nil rfl rfl
  have hc : ∀ k c', liveConfig 0 m k = some c' → c' = c := by
    intro k c' h
    unfold liveConfig lookup at h
    by_cases hk : "a" = k
    · subst hk; exact (Option.some.inj h).symm
    · have : AMap.get? m k = none := by
        rw [AMap.get?_eq_none_iff]
        simp only [AMap.keys, m, List.map_cons, List.map_nil, List.mem_singleton]
        exact Ne.symm hk
      rw [this] at h
      exact absurd h (by simp)
  have hz : ∀ k c', liveConfig 0 m k = some c' → NoNegZero c' := by
    intro k c' h
    rw [hc k c' h]
    show (0x7FF8000000000001 : UInt64) ≠ 0x8000000000000000
    decide
  obtain ⟨m1, file, m2, h1, h2, _, h3⟩ := h (toy 0) 0 0 m ["a"] (toy_ok 0) hw (List.Perm.refl _) hz
  obtain ⟨m1', file', m2', g1, g2, _, _, g3⟩ := C51_restore_partial (toy_ok 0) 0 0 m ["a"] hw (List.Perm.refl _) hz
  rw [g1] at h1
  injection h1 with h1
  injection h1 with _ h1
  subst h1
  rw [g2] at h2
  injection h2 with h2
  subst h2
  have h4 := (g3 "a").symm.trans (h3 "a")
  have h5 : liveConfig 0 m "a" = some c := rfl
  have h6 : ¬ Finite c := by decide
  rw [h5] at h4
  simp [Option.filter, h6] at h4

/-- C51, an instance: two data sets are saved and restored. -/
example : ∃ m1 file m2, saveIndex (toy 0) 5 ["a", "b"] exList = .ok (m1, file) ∧ loadIndex (toy 0) 100 file [] = .ok m2 ∧
    liveConfig 100 m2 "a" = some (exA 1) ∧ liveConfig 100 m2 "b" = some exB ∧ liveConfig 100 m2 "c" = none := by
  obtain ⟨m1, file, m2, h1, h2, _, _, h3⟩ := C51_restore_partial (toy_ok 0) 5 100 exList ["a", "b"] exList_wf (by decide) (by
    intro k c h
    unfold liveConfig at h
    cases hl : lookup 5 exList k with
    | none => rw [hl] at h; exact absurd h (by simp)
    | some s =>
      rw [hl] at h
      have hm := AMap.mem_of_get? (lookup_some.mp hl).1
      simp only [exList, List.mem_cons, Prod.mk.injEq, List.not_mem_nil, or_false] at hm
      rcases hm with ⟨rfl, rfl⟩ | ⟨rfl, rfl⟩ <;> (cases h; show (0 : UInt64) ≠ 0x8000000000000000; decide))
  exact ⟨m1, file, m2, h1, h2, by rw [h3]; decide, by rw [h3]; decide, by rw [h3]; decide⟩

/-! ### C53 -/

/-- C53, the claim in full: a data set into which an insert was acknowledged, and whose datum is live, is still listed after
the clean-up. -/
def C53_cleanup_statement : Prop :=
  ∀ (X : XEnv) (now : Int) (nowS : Int64) (order : List SourceId) (call : Data.RemoteInsert Unit) (m m1 m2 : DL) (w' : Unit)
    (name : String) (datum : Option Datum) (config : Option InsertConfig)
    (info : String → SourceId → Option DataInfo) (so : String → List SourceId) (ks : List String),
    X.Ok → WF m → DS.insert X false now nowS order call m () name datum config = .ok (m1, w', none) →
    ks.Perm (names now m1) → reloadRuns now info so ks m1 = .ok m2 → (lookup now m2 name).isSome = true

namespace DS
theorem activeSources_false {info : SourceId → Option DataInfo} : ∀ {order : List SourceId},
    activeSources info order = .ok false → ∀ id ∈ order, ∃ i, info id = some i ∧ i.n = 0
  | [], _, id, h => by simp at h
  | x :: xs, h, id, hm => by
    unfold activeSources at h
    cases hi : info x with
    | none => rw [hi] at h; exact absurd h (by simp)
    | some i =>
      rw [hi] at h
      simp only at h
      split at h
      · exact absurd h (by simp)
      · rename_i hn
        rcases List.mem_cons.mp hm with rfl | hm
        · refine ⟨i, hi, ?_⟩
          have : ¬ 0 < i.n.toNat := fun e => hn (UInt64.lt_iff_toNat_lt.mpr e)
          exact UInt64.toNat_inj.mp (by have : (0 : UInt64).toNat = 0 := rfl; omega)
        · exact activeSources_false h id hm

theorem checkIfActive_false {info : SourceId → Option DataInfo} {order : List SourceId} {dt : Data}
    (h : checkIfActive info order dt = .ok false) : dt.n = 0 ∧ ∀ id ∈ order, ∃ i, info id = some i ∧ i.n = 0 := by
  unfold checkIfActive at h
  split at h
  · exact absurd h (by simp)
  · rename_i hn
    refine ⟨?_, activeSources_false h⟩
    have : ¬ 0 < dt.n.toNat := fun e => hn (UInt64.lt_iff_toNat_lt.mpr e)
    exact UInt64.toNat_inj.mp (by have : (0 : UInt64).toNat = 0 := rfl; omega)

theorem inactive_mem {now : Int} {info : String → SourceId → Option DataInfo} {so : String → List SourceId} {m : DL} :
    ∀ {ks r : List String}, inactive now info so m ks = .ok r → ∀ k, k ∈ r ↔ k ∈ ks ∧ ∃ s, lookup now m k = some s ∧
      checkIfActive (info k) (so k) s.data = .ok false
  | [], r, h, k => by
    unfold inactive at h
    injection h with h
    subst h
    simp
  | x :: xs, r, h, k => by
    unfold inactive at h
    cases hl : lookup now m x with
    | none =>
      rw [hl] at h
      simp only at h
      rw [inactive_mem h k, List.mem_cons]
      constructor
      · rintro ⟨h1, h2⟩; exact ⟨Or.inr h1, h2⟩
      · rintro ⟨rfl | h1, s, h2, h3⟩
        · rw [hl] at h2; exact absurd h2 (by simp)
        · exact ⟨h1, s, h2, h3⟩
    | some s =>
      rw [hl] at h
      simp only at h
      cases hc : checkIfActive (info x) (so x) s.data with
      | err e => rw [hc] at h; exact absurd h (by simp [Res.bind])
      | panic => rw [hc] at h; exact absurd h (by simp [Res.bind])
      | ok a =>
        rw [hc] at h
        simp only [Res.bind] at h
        cases hr : inactive now info so m xs with
        | err e => rw [hr] at h; exact absurd h (by simp)
        | panic => rw [hr] at h; exact absurd h (by simp)
        | ok r' =>
          rw [hr] at h
          simp only [Res.ok.injEq] at h
          have ih := inactive_mem hr k
          cases a with
          | true =>
            simp only [if_true] at h
            subst h
            rw [ih, List.mem_cons]
            constructor
            · rintro ⟨h1, h2⟩; exact ⟨Or.inr h1, h2⟩
            · rintro ⟨rfl | h1, s', h2, h3⟩
              · rw [hl] at h2
                injection h2 with h2
                subst h2
                rw [hc] at h3
                exact absurd h3 (by simp)
              · exact ⟨h1, s', h2, h3⟩
          | false =>
            simp only [Bool.false_eq_true, if_false] at h
            subst h
            rw [List.mem_cons, List.mem_cons, ih]
            constructor
            · rintro (rfl | ⟨h1, h2⟩)
              · exact ⟨Or.inl rfl, s, hl, hc⟩
              · exact ⟨Or.inr h1, h2⟩
            · rintro ⟨rfl | h1, h2⟩
              · exact Or.inl rfl
              · exact Or.inr ⟨h1, h2⟩

theorem get?_eraseAll : ∀ (r : List String) (m : DL) (k : String),
    (r.foldl (fun m k => m.erase k) m).get? k = if k ∈ r then none else m.get? k
  | [], m, k => by simp
  | x :: xs, m, k => by
    rw [List.foldl_cons, get?_eraseAll xs, AMap.get?_erase]
    by_cases h1 : k ∈ xs
    · simp [h1]
    · by_cases h2 : x = k
      · simp [h2]
      · simp [h1, h2, Ne.symm h2]

/-- The clean-up takes out exactly the data sets that `CheckIfActive` finds inactive. -/
theorem reloadRuns_spec {now : Int} {info : String → SourceId → Option DataInfo} {so : String → List SourceId}
    {ks : List String} {m m' : DL} (h : reloadRuns now info so ks m = .ok m') (k : String) :
    (m'.get? k = m.get? k) ∨ (m'.get? k = none ∧ ∃ s, lookup now m k = some s ∧
      checkIfActive (info k) (so k) s.data = .ok false) := by
  unfold reloadRuns at h
  cases hr : inactive now info so m ks with
  | err e => rw [hr] at h; exact absurd h (by simp [Res.bind])
  | panic => rw [hr] at h; exact absurd h (by simp [Res.bind])
  | ok r =>
    rw [hr] at h
    simp only [Res.bind, Res.ok.injEq] at h
    rw [← h, get?_eraseAll]
    by_cases hk : k ∈ r
    · right
      rw [if_pos hk]
      exact ⟨rfl, ((inactive_mem hr k).mp hk).2⟩
    · left
      rw [if_neg hk]
end DS

/-- C53, what holds: the clean-up leaves a data set as it is, or removes it because the last maintenance run counted no
entry here and no peer serving it reports any. -/
theorem C53_cleanup_partial (now : Int) (info : String → SourceId → Option DataInfo) (so : String → List SourceId)
    (ks : List String) (m m' : DL) (h : reloadRuns now info so ks m = .ok m') (k : String) (s : Slot)
    (hs : lookup now m k = some s) :
    m'.get? k = some s ∨
    (m'.get? k = none ∧ s.data.n = 0 ∧ ∀ id ∈ so k, ∃ i, info k id = some i ∧ i.n = 0) := by
  rcases reloadRuns_spec h k with h1 | ⟨h1, s', h2, h3⟩
  · left; rw [h1]; exact (lookup_some.mp hs).1
  · right
    rw [hs] at h2
    injection h2 with h2
    subst h2
    exact ⟨h1, checkIfActive_false h3⟩

/-- C53: in particular a data set whose entries were counted stays. -/
theorem C53_counted_partial (now : Int) (info : String → SourceId → Option DataInfo) (so : String → List SourceId)
    (ks : List String) (m m' : DL) (h : reloadRuns now info so ks m = .ok m') (k : String) (s : Slot)
    (hs : lookup now m k = some s) (hn : s.data.n ≠ 0) : m'.get? k = some s := by
  rcases C53_cleanup_partial now info so ks m m' h k s hs with h1 | ⟨_, h2, _⟩
  · exact h1
  · exact absurd h2 hn

/-- C53, an instance: one of two data sets has entries. -/
example : ∃ m', reloadRuns 5 (fun _ _ => none) (fun _ => []) ["a", "b"]
    (AMap.set exList "a" ⟨{ Data.newData (exA 1) with n := 3 }, none⟩) = .ok m' ∧
    (m'.get? "a").isSome = true ∧ m'.get? "b" = none := by
  refine ⟨_, rfl, ?_⟩
  decide +kernel

namespace DS
def exDatum : Datum := ⟨some (Store.exKey 1), some (Store.exVal 1)⟩
def exCall : Data.RemoteInsert Unit := fun _ _ _ w => (w, none)
end DS

/-- C53, counterexample: an insert is acknowledged, and the clean-up runs before the first maintenance run has counted it. -/
theorem C53_cleanup_fails : ¬ C53_cleanup_statement := by
  intro h
  cases hi : DS.insert (toy 0) false 0 1000 [] exCall [] () "x" (some exDatum) (some ⟨60, 0⟩) with
  | err e =>
    have : (match DS.insert (toy 0) false 0 1000 [] exCall [] () "x" (some exDatum) (some ⟨60, 0⟩) with
      | .ok _ => true | _ => false) = true := by decide +kernel
    rw [hi] at this; exact absurd this (by simp)
  | panic =>
    have : (match DS.insert (toy 0) false 0 1000 [] exCall [] () "x" (some exDatum) (some ⟨60, 0⟩) with
      | .ok _ => true | _ => false) = true := by decide +kernel
    rw [hi] at this; exact absurd this (by simp)
  | ok r =>
    obtain ⟨m1, w, e⟩ := r
    have h0 : (match DS.insert (toy 0) false 0 1000 [] exCall [] () "x" (some exDatum) (some ⟨60, 0⟩) with
      | .ok (m1, _, e) => decide (e = none) && decide (names 0 m1 = ["x"]) &&
        (match reloadRuns 0 (fun _ _ => none) (fun _ => []) ["x"] m1 with
          | .ok m2 => !(lookup 0 m2 "x").isSome
          | _ => false)
      | _ => false) = true := by decide +kernel
    rw [hi] at h0
    simp only [Bool.and_eq_true, decide_eq_true_eq] at h0
    obtain ⟨⟨h1, h2⟩, h3⟩ := h0
    subst h1
    cases hr : reloadRuns 0 (fun _ _ => none) (fun _ => []) ["x"] m1 with
    | err e => rw [hr] at h3; exact absurd h3 (by simp)
    | panic => rw [hr] at h3; exact absurd h3 (by simp)
    | ok m2 =>
      rw [hr] at h3
      have := h (toy 0) 0 1000 [] exCall [] m1 m2 w "x" (some exDatum) (some ⟨60, 0⟩) _ _ ["x"] (toy_ok 0) wf_nil hi
        (by rw [h2]) hr
      simp [this] at h3

end Veri
