import Verif.Store.Lemmas
/-
Properties C08-C12 and C14: the store is a map with expiry.
-/
set_option autoImplicit false
namespace Veri
open Gencoder Store

namespace Store

/-- A scan on a well-formed store. -/
theorem scan_abs {m : DBMap} (h : WF m) {vs : List Visit} {clock : DatumKey → Int64}
    (hr : IsRange m vs) (hc : ∀ v ∈ vs, ∀ k, v.entry.datum.key = some k → v.now = clock k) :
    abs (eraseAll m (expiredKeys vs)) = Ref.afterScan (abs m) clock := by
  funext k
  have hwf := wf_eraseAll (expiredKeys vs) h
  unfold Ref.afterScan
  cases ha : abs m k with
  | none =>
    rw [Option.filter_none, abs_none_iff hwf, get?_eraseAll, (abs_none_iff h k).1 ha]
    simp
  | some x =>
    obtain ⟨val, t⟩ := x
    have hg := (abs_some_iff h k val t).1 ha
    obtain ⟨v, hv, hvk, hve⟩ := range_of_get? hr _ _ hg
    have hnow : v.now = clock k := hc v hv k (by rw [hve])
    have hmem : encKey k ∈ expiredKeys vs ↔ isExpired v.entry v.now = true := by
      constructor
      · intro hm
        obtain ⟨w, hw, hwk⟩ := List.mem_map.1 hm
        obtain ⟨hw1, hw2⟩ := List.mem_filter.1 hw
        have h1 := range_get? h.nodup hr w hw1
        rw [hwk, hg] at h1
        injection h1 with h1
        have : w.now = clock k := hc w hw1 k (by rw [← h1])
        rw [hve, h1, hnow, ← this]; exact hw2
      · intro hx
        exact List.mem_map.2 ⟨v, List.mem_filter.2 ⟨hv, hx⟩, hvk⟩
    have hx := isExpired_iff v.entry v.now val
    rw [hve, hnow] at hx
    by_cases hal : Ref.Rec.alive ⟨val, t⟩ (clock k)
    · have hne : encKey k ∉ expiredKeys vs := by
        rw [hmem, hve, hnow, hx]; exact fun hn => hn hal
      rw [Option.filter_some, if_pos (by simpa using hal), abs_some_iff hwf, get?_eraseAll, if_neg hne, hg]
    · have hne : encKey k ∈ expiredKeys vs := by
        rw [hmem, hve, hnow, hx]; exact hal
      rw [Option.filter_some, if_neg (by simpa using hal), abs_none_iff hwf, get?_eraseAll, if_pos hne]

theorem scan_out {m : DBMap} (h : WF m) {vs : List Visit} {clock : DatumKey → Int64}
    (hr : IsRange m vs) (hc : ∀ v ∈ vs, ∀ k, v.entry.datum.key = some k → v.now = clock k)
    (k : DatumKey) (val : DatumValue) :
    (⟨some k, some val⟩ : Datum) ∈ (liveEntries vs).map (·.datum) ↔ Ref.shows (abs m) clock k val := by
  constructor
  · intro hm
    obtain ⟨e, he, hd⟩ := List.mem_map.1 hm
    obtain ⟨v, hv, hve⟩ := List.mem_map.1 he
    obtain ⟨hv1, hv2⟩ := List.mem_filter.1 hv
    have hg := range_get? h.nodup hr v hv1
    obtain ⟨k', v', hb, he'⟩ := h.entry (AMap.mem_of_get? hg)
    have hd' : v.entry.datum = ⟨some k, some val⟩ := by rw [hve]; exact hd
    have hk : k' = k := by rw [he'] at hd'; injection hd' with h1 _; injection h1
    subst hk
    have hnow := hc v hv1 k' (by rw [hd'])
    rw [hb] at hg
    have hg' : m.get? (encKey k') = some ⟨v.entry.expireAt, ⟨some k', some val⟩⟩ := by
      rw [hg, ← hd']
    refine ⟨_, (abs_some_iff h k' val _).2 hg', ?_, rfl⟩
    have hx := isExpired_iff v.entry v.now val
    rw [← hnow]
    by_cases hal : Ref.Rec.alive ⟨val, v.entry.expireAt⟩ v.now
    · exact hal
    · rw [hx.2 hal] at hv2; simp at hv2
  · rintro ⟨⟨val', t⟩, ha, hal, hv⟩
    simp only at hv
    subst hv
    have hg := (abs_some_iff h k val' t).1 ha
    obtain ⟨v, hv, hvk, hve⟩ := range_of_get? hr _ _ hg
    have hnow : v.now = clock k := hc v hv k (by rw [hve])
    have hx := isExpired_iff v.entry v.now val'
    rw [hve, hnow] at hx
    refine List.mem_map.2 ⟨v.entry, List.mem_map.2 ⟨v, List.mem_filter.2 ⟨hv, ?_⟩, rfl⟩, by rw [hve]⟩
    rw [hve, hnow]
    cases hb : isExpired ⟨t, ⟨some k, some val'⟩⟩ (clock k) with
    | false => rfl
    | true => exact absurd hal (hx.1 hb)

/-- A store operation does what the reference map says, and keeps the store well-formed. -/
theorem step_sound {m m' : DBMap} {op : Op} {out : List Datum} (h : WF m) (hs : Step m op m' out) :
    WF m' ∧ abs m' = refStep (abs m) op := by
  cases hs with
  | insert hi =>
    obtain ⟨m2, b2, h1, h2, h3, _⟩ := insertBDMap_spec h _ _ _ _
    rw [h1] at hi
    injection hi with hi
    injection hi with hi _
    subst hi
    exact ⟨h2, h3⟩
  | delete hd =>
    rw [deleteBDMap_eq] at hd
    injection hd with hd
    subst hd
    exact ⟨wf_erase h _, abs_erase _⟩
  | scan hr hc hs =>
    rw [streamAll_eq] at hs
    injection hs with hs
    injection hs with h1 _
    subst h1
    exact ⟨wf_eraseAll _ h, scan_abs h hr hc⟩

theorem steps_sound {m m' : DBMap} {ops : List Op} (hs : Steps m ops m') : WF m →
    WF m' ∧ abs m' = refRun (abs m) ops := by
  induction hs with
  | nil => intro h; exact ⟨h, rfl⟩
  | cons h1 _ ih =>
    intro h
    obtain ⟨hw, ha⟩ := step_sound h h1
    obtain ⟨hw2, ha2⟩ := ih hw
    exact ⟨hw2, by rw [ha2, ha]; rfl⟩

theorem nodup_out {m : DBMap} (h : WF m) {vs : List Visit} (hr : IsRange m vs) :
    (((liveEntries vs).map (·.datum)).map (·.key)).Nodup := by
  have h1 : (vs.map (·.key)).Nodup := by
    have := (AMap.nodup_perm hr).2 h.nodup
    simpa [AMap.Nodup, AMap.keys, Function.comp_def] using this
  have h2 : (liveEntries vs).map (fun e => e.datum.key) =
      ((vs.filter fun v => !isExpired v.entry v.now).map fun v => v.entry.datum.key) := by
    simp [liveEntries, Function.comp_def]
  rw [List.map_map, Function.comp_def, h2]
  have h3 : (vs.filter fun v => !isExpired v.entry v.now).Pairwise (fun a b => a.key ≠ b.key) :=
    (List.pairwise_map.1 h1).filter _
  apply List.pairwise_map.2
  refine h3.imp_of_mem ?_
  intro a b ha hb hne heq
  have ha' := AMap.mem_of_get? (range_get? h.nodup hr a (List.mem_filter.1 ha).1)
  have hb' := AMap.mem_of_get? (range_get? h.nodup hr b (List.mem_filter.1 hb).1)
  obtain ⟨ka, hka, hba⟩ := h.keyed _ _ ha'
  obtain ⟨kb, hkb, hbb⟩ := h.keyed _ _ hb'
  rw [hka, hkb] at heq
  injection heq with heq
  exact hne (by rw [hba, hbb, heq])

end Store

/-! ### C08 -/

/-- C08.  After every history starting from the empty store, a scan returns exactly what the
reference map shows, each key once; no operation fails (`C08_total`). -/
theorem C08_store_refines_reference (ops : List Op) (m m' : DBMap) (clock : DatumKey → Int64)
    (out : List Datum) (h : Steps [] ops m) (hs : Step m (.scan clock) m' out) :
    (out.map (·.key)).Nodup ∧
    (∀ d ∈ out, ∃ k v, d = ⟨some k, some v⟩) ∧
    (∀ k v, (⟨some k, some v⟩ : Datum) ∈ out ↔ Ref.shows (refRun Ref.empty ops) clock k v) ∧
    abs m' = Ref.afterScan (refRun Ref.empty ops) clock := by
  obtain ⟨hw, ha⟩ := steps_sound h wf_nil
  have hae : abs [] = Ref.empty := rfl
  rw [hae] at ha
  cases hs with
  | scan hr hc hs =>
    rw [streamAll_eq] at hs
    injection hs with hs
    injection hs with h1 h2
    injection h2 with h2 _
    subst h1; subst h2
    refine ⟨nodup_out hw hr, ?_, ?_, ?_⟩
    · intro d hd
      obtain ⟨e, he, hd⟩ := List.mem_map.1 hd
      obtain ⟨v, hv, hve⟩ := List.mem_map.1 he
      obtain ⟨k', v', _, he'⟩ := hw.entry (AMap.mem_of_get? (range_get? hw.nodup hr v (List.mem_filter.1 hv).1))
      exact ⟨k', v', by rw [← hd, ← hve, he']⟩
    · intro k v
      rw [← ha]; exact scan_out hw hr hc k v
    · rw [← ha]; exact scan_abs hw hr hc

/-- C08, totality: on every reachable store every operation succeeds, a scan for every order of
visiting and every clock. -/
theorem C08_total (ops : List Op) (m : DBMap) (h : Steps [] ops m) :
    (∀ op, ∃ m' out, Step m op m' out) ∧
    (∀ vs clock, IsRange m vs → (∀ v ∈ vs, ∀ k, v.entry.datum.key = some k → v.now = clock k) →
      ∃ m' out, streamAll vs m = .ok (m', out, none) ∧ Step m (.scan clock) m' out) := by
  obtain ⟨hw, _⟩ := steps_sound h wf_nil
  have hscan : ∀ vs clock, IsRange m vs →
      (∀ v ∈ vs, ∀ k, v.entry.datum.key = some k → v.now = clock k) →
      ∃ m' out, streamAll vs m = .ok (m', out, none) ∧ Step m (.scan clock) m' out := by
    intro vs clock hr hc
    exact ⟨_, _, streamAll_eq vs m, .scan hr hc (streamAll_eq vs m)⟩
  refine ⟨?_, hscan⟩
  intro op
  cases op with
  | insert now k v config =>
    obtain ⟨m', b, h1, _⟩ := insertBDMap_spec hw now k v config
    exact ⟨m', [], .insert h1⟩
  | delete k v => exact ⟨_, [], .delete (deleteBDMap_eq m k v)⟩
  | scan clock =>
    let vs : List Visit := m.map fun p => ⟨p.1, p.2, match p.2.datum.key with | some k => clock k | none => 0⟩
    have hr : IsRange m vs := by
      have : (vs.map fun v => (v.key, v.entry)) = m := by simp [vs, Function.comp_def]
      rw [IsRange, this]
    obtain ⟨m', out, _, h2⟩ := hscan vs clock hr (by
      intro v hv k hk
      obtain ⟨p, _, hp⟩ := List.mem_map.1 hv
      subst hp
      simp only at hk ⊢
      rw [hk])
    exact ⟨m', out, h2⟩

namespace Store
/-- Concrete history used to show that the hypotheses are met: two keys, an overwrite, a delete. -/
def exKey (n : UInt32) : DatumKey := ⟨[0x3F800000], [65], n, 0, 1, 1⟩
def exVal (n : UInt64) : DatumValue := ⟨n, [66, 67]⟩
def exOps : List Op :=
  [.insert 1000 (exKey 1) (exVal 1) none, .insert 1001 (exKey 2) (exVal 2) (some ⟨60, 0⟩),
   .insert 1002 (exKey 1) (exVal 3) (some ⟨30, 0⟩), .scan (fun _ => 1010), .delete (exKey 2) none]
end Store

/-- The reference map after the example history holds key 1 with the overwritten value. -/
example : ∃ m, Steps [] exOps m ∧ refRun Ref.empty exOps (exKey 1) = some ⟨exVal 3, 1032⟩ ∧
    refRun Ref.empty exOps (exKey 2) = none := by
  have total : ∀ (ops : List Op) (m : DBMap), WF m → ∃ m', Steps m ops m' := by
    intro ops
    induction ops with
    | nil => intro m _; exact ⟨m, .nil⟩
    | cons op ops ih =>
      intro m hw
      have : ∃ m' out, Step m op m' out := by
        cases op with
        | insert now k v config =>
          obtain ⟨m', b, h1, _⟩ := insertBDMap_spec hw now k v config
          exact ⟨m', [], .insert h1⟩
        | delete k v => exact ⟨_, [], .delete (deleteBDMap_eq m k v)⟩
        | scan clock =>
          let vs : List Visit := m.map fun p => ⟨p.1, p.2, match p.2.datum.key with | some k => clock k | none => 0⟩
          have hr : IsRange m vs := by
            have : (vs.map fun v => (v.key, v.entry)) = m := by simp [vs, Function.comp_def]
            rw [IsRange, this]
          refine ⟨_, _, .scan hr ?_ (streamAll_eq vs m)⟩
          intro v hv k hk
          obtain ⟨p, _, hp⟩ := List.mem_map.1 hv
          subst hp
          simp only at hk ⊢
          rw [hk]
      obtain ⟨m', out, h1⟩ := this
      obtain ⟨m'', h2⟩ := ih m' (step_sound hw h1).1
      exact ⟨m'', .cons h1 h2⟩
  obtain ⟨m, hm⟩ := total exOps [] wf_nil
  exact ⟨m, hm, by decide, by decide⟩

/-! ### C09, C10 -/

namespace Store

theorem refStep_not_inserts (r : Ref.RefMap) (op : Op) (k : DatumKey) (h : ¬ op.inserts k) (x : Ref.Rec)
    (hx : refStep r op k = some x) : r k = some x := by
  cases op with
  | insert now k' v config =>
    simp only [Op.inserts] at h
    have hne : ¬ k = k' := fun e => h e.symm
    simp only [refStep] at hx
    rwa [ref_insert_ne _ _ _ _ _ _ hne] at hx
  | delete k' v =>
    simp only [refStep, Ref.delete, Ref.update] at hx
    split at hx
    · cases hx
    · exact hx
  | scan clock =>
    simp only [refStep, Ref.afterScan] at hx
    rw [Option.filter_eq_some_iff] at hx
    exact hx.1

theorem refRun_not_inserts (ops : List Op) : ∀ (r : Ref.RefMap) (k : DatumKey), (∀ op ∈ ops, ¬ op.inserts k) →
    ∀ x, refRun r ops k = some x → r k = some x := by
  induction ops with
  | nil => intro r k _ x hx; exact hx
  | cons op ops ih =>
    intro r k h x hx
    exact refStep_not_inserts r op k (h op List.mem_cons_self) x
      (ih _ k (fun o ho => h o (List.mem_cons_of_mem _ ho)) x hx)

theorem refStep_keeps (r : Ref.RefMap) (op : Op) (k : DatumKey) (x : Ref.Rec) (h : ¬ op.writes k)
    (hb : x.expireAt = 0 ∨ op.before k x.expireAt.toInt) (hx : r k = some x) : refStep r op k = some x := by
  cases op with
  | insert now k' v config =>
    simp only [Op.writes] at h
    have hne : ¬ k = k' := fun e => h e.symm
    simp only [refStep]
    rwa [ref_insert_ne _ _ _ _ _ _ hne]
  | delete k' v =>
    simp only [Op.writes] at h
    have hne : ¬ k = k' := fun e => h e.symm
    simpa [refStep, Ref.delete, Ref.update, hne] using hx
  | scan clock =>
    simp only [refStep, Ref.afterScan, hx, Option.filter_some]
    rw [if_pos]
    apply decide_eq_true
    rcases hb with hb | hb
    · exact Or.inl hb
    · exact Or.inr (by rw [Int64.lt_iff_toInt_lt]; exact hb)

theorem refRun_keeps (ops : List Op) : ∀ (r : Ref.RefMap) (k : DatumKey) (x : Ref.Rec),
    (∀ op ∈ ops, ¬ op.writes k) → (x.expireAt = 0 ∨ ∀ op ∈ ops, op.before k x.expireAt.toInt) →
    r k = some x → refRun r ops k = some x := by
  induction ops with
  | nil => intro r k x _ _ hx; exact hx
  | cons op ops ih =>
    intro r k x h hb hx
    refine ih _ k x (fun o ho => h o (List.mem_cons_of_mem _ ho)) ?_ ?_
    · rcases hb with hb | hb
      · exact Or.inl hb
      · exact Or.inr fun o ho => hb o (List.mem_cons_of_mem _ ho)
    · refine refStep_keeps r op k x (h op List.mem_cons_self) ?_ hx
      rcases hb with hb | hb
      · exact Or.inl hb
      · exact Or.inr (hb op List.mem_cons_self)

/-- Reference insert with a non-overflowing TTL: the remembered expiry is within nine seconds. -/
theorem ref_insert_ttl (r : Ref.RefMap) (now : Int64) (k : DatumKey) (v : DatumValue) (c : InsertConfig)
    (hc : c.ttl ≠ 0) (h1 : 10 ≤ now.toInt + c.ttl.toNat) (h2 : now.toInt + c.ttl.toNat ≤ 2^63 - 11) :
    ∃ x, Ref.insert r now k v (some c) k = some x ∧ x.value = v ∧ x.expireAt ≠ 0 ∧
      now.toInt + c.ttl.toNat - 9 ≤ x.expireAt.toInt ∧ x.expireAt.toInt ≤ now.toInt + c.ttl.toNat + 9 := by
  have hexp : Ref.expiry now (some c) = now + c.ttl.toInt64 := by simp [Ref.expiry, hc]
  have htt := add_ttl now c.ttl (by omega)
  have zero : (0 : Int64).toInt = 0 := by decide
  rw [ref_insert_self]
  split
  · rename_i old ho
    split
    · rename_i hcond
      obtain ⟨hv, hn⟩ := hcond
      rw [hexp, near_iff_of_range _ _ (by omega) (by omega), htt] at hn
      refine ⟨old, rfl, hv, ?_, by omega, by omega⟩
      intro h0; rw [h0, zero] at hn; omega
    · refine ⟨_, rfl, rfl, ?_, ?_, ?_⟩
      · simp only [hexp]; intro h0; rw [h0, zero] at htt; omega
      · simp only [hexp, htt]; omega
      · simp only [hexp, htt]; omega
  · refine ⟨_, rfl, rfl, ?_, ?_, ?_⟩
    · simp only [hexp]; intro h0; rw [h0, zero] at htt; omega
    · simp only [hexp, htt]; omega
    · simp only [hexp, htt]; omega

end Store

/-- C09, upper bound.  A datum accepted at time `now` with TTL `t` is in no scan at or after
`now + t + 9` that is not preceded by another insert of the key. -/
theorem C09_ttl_upper (ops0 ops : List Op) (m0 m1 m2 m3 : DBMap) (out1 out : List Datum) (now : Int64)
    (k : DatumKey) (v : DatumValue) (c : InsertConfig) (clock : DatumKey → Int64)
    (h0 : Steps [] ops0 m0) (hi : Step m0 (.insert now k v (some c)) m1 out1) (h1 : Steps m1 ops m2)
    (hs : Step m2 (.scan clock) m3 out)
    (hc : c.ttl ≠ 0) (hlo : 10 ≤ now.toInt + c.ttl.toNat) (hhi : now.toInt + c.ttl.toNat ≤ 2^63 - 11)
    (hno : ∀ op ∈ ops, ¬ op.inserts k) (hclk : now.toInt + c.ttl.toNat + 9 ≤ (clock k).toInt) :
    ∀ d ∈ out, d.key ≠ some k := by
  obtain ⟨hw0, _⟩ := steps_sound h0 wf_nil
  obtain ⟨hw1, ha1⟩ := step_sound hw0 hi
  obtain ⟨hw2, ha2⟩ := steps_sound h1 hw1
  intro d hd hdk
  cases hs with
  | scan hr hcl hs =>
    rw [streamAll_eq] at hs
    injection hs with hs
    injection hs with _ h2
    injection h2 with h2 _
    subst h2
    obtain ⟨e, he, hde⟩ := List.mem_map.1 hd
    obtain ⟨w, hw, hwe⟩ := List.mem_map.1 he
    obtain ⟨k', v', _, he'⟩ := hw2.entry (AMap.mem_of_get? (range_get? hw2.nodup hr w (List.mem_filter.1 hw).1))
    have hdd : d = ⟨some k', some v'⟩ := by rw [← hde, ← hwe, he']
    rw [hdd] at hdk hd
    injection hdk with hdk
    subst hdk
    obtain ⟨x, hx, hal, _⟩ := (scan_out hw2 hr hcl k' v').1 hd
    rw [ha2] at hx
    have hx1 := refRun_not_inserts ops _ k' hno x hx
    rw [ha1] at hx1
    obtain ⟨y, hy, _, hy0, _, hy2⟩ := ref_insert_ttl (abs m0) now k' v c hc hlo hhi
    simp only [refStep] at hx1
    rw [hy] at hx1
    injection hx1 with hx1
    subst hx1
    rcases hal with hal | hal
    · exact hy0 hal
    · rw [Int64.lt_iff_toInt_lt] at hal; omega

/-- C09, lower bound.  If it is not deleted or inserted again, it is in every scan that looks at it
before `now + t - 9`. -/
theorem C09_ttl_lower (ops0 ops : List Op) (m0 m1 m2 m3 : DBMap) (out1 out : List Datum) (now : Int64)
    (k : DatumKey) (v : DatumValue) (c : InsertConfig) (clock : DatumKey → Int64)
    (h0 : Steps [] ops0 m0) (hi : Step m0 (.insert now k v (some c)) m1 out1) (h1 : Steps m1 ops m2)
    (hs : Step m2 (.scan clock) m3 out)
    (hc : c.ttl ≠ 0) (hlo : 10 ≤ now.toInt + c.ttl.toNat) (hhi : now.toInt + c.ttl.toNat ≤ 2^63 - 11)
    (hno : ∀ op ∈ ops, ¬ op.writes k) (hbef : ∀ op ∈ ops, op.before k (now.toInt + c.ttl.toNat - 9))
    (hclk : (clock k).toInt < now.toInt + c.ttl.toNat - 9) :
    (⟨some k, some v⟩ : Datum) ∈ out := by
  obtain ⟨hw0, _⟩ := steps_sound h0 wf_nil
  obtain ⟨hw1, ha1⟩ := step_sound hw0 hi
  obtain ⟨hw2, ha2⟩ := steps_sound h1 hw1
  cases hs with
  | scan hr hcl hs =>
    rw [streamAll_eq] at hs
    injection hs with hs
    injection hs with _ h2
    injection h2 with h2 _
    subst h2
    rw [scan_out hw2 hr hcl, ha2]
    obtain ⟨y, hy, hyv, _, hy1, _⟩ := ref_insert_ttl (abs m0) now k v c hc hlo hhi
    refine ⟨y, refRun_keeps ops _ k y hno (Or.inr ?_) (by rw [ha1]; exact hy), Or.inr ?_, hyv⟩
    · intro op hop
      have := hbef op hop
      cases op with
      | scan cl => simp only [Op.before] at this ⊢; omega
      | insert => trivial
      | delete => trivial
    · rw [Int64.lt_iff_toInt_lt]; omega

/-- The bounds are tight: re-inserting the same datum 9 seconds later with the same TTL keeps the
first expiry, so it disappears 9 seconds before the second insert's TTL ends. -/
example : Ref.insert (Ref.insert Ref.empty 1000 (exKey 1) (exVal 1) (some ⟨60, 0⟩)) 1009 (exKey 1) (exVal 1)
    (some ⟨60, 0⟩) (exKey 1) = some ⟨exVal 1, 1060⟩ := by decide

/-- Sane histories: every TTL insert expires at a 64-bit time of at least 10. -/
def Store.Op.NoOverflow : Op → Prop
  | .insert now _ _ (some c) => c.ttl = 0 ∨ (10 ≤ now.toInt + c.ttl.toNat ∧ now.toInt + c.ttl.toNat ≤ 2^63 - 11)
  | _ => True

namespace Store

theorem ref_noOverflow (ops : List Op) : ∀ (r : Ref.RefMap), (∀ op ∈ ops, op.NoOverflow) →
    (∀ k x, r k = some x → x.expireAt = 0 ∨ 10 ≤ x.expireAt.toInt) →
    ∀ k x, refRun r ops k = some x → x.expireAt = 0 ∨ 10 ≤ x.expireAt.toInt := by
  induction ops with
  | nil => intro r _ h k x hx; exact h k x hx
  | cons op ops ih =>
    intro r hno h k x hx
    refine ih _ (fun o ho => hno o (List.mem_cons_of_mem _ ho)) ?_ k x hx
    intro k' x' hx'
    cases op with
    | insert now k2 v config =>
      have hexp : Ref.expiry now config = 0 ∨ 10 ≤ (Ref.expiry now config).toInt := by
        cases config with
        | none => exact Or.inl rfl
        | some c =>
          by_cases hc : c.ttl = 0
          · left; simp [Ref.expiry, hc]
          · right
            have hn := hno _ List.mem_cons_self
            simp only [Op.NoOverflow, hc, false_or] at hn
            obtain ⟨y, hy, _, _, _, _⟩ := ref_insert_ttl Ref.empty now k2 v c hc hn.1 hn.2
            have htt := add_ttl now c.ttl (by omega)
            simp only [Ref.expiry, hc, if_false, htt]; exact hn.1
      simp only [refStep] at hx'
      by_cases hk : k' = k2
      · subst hk
        rw [ref_insert_self] at hx'
        split at hx'
        · rename_i old ho
          split at hx'
          · injection hx' with hx'; subst hx'; exact h _ _ ho
          · injection hx' with hx'; subst hx'; exact hexp
        · injection hx' with hx'; subst hx'; exact hexp
      · rw [ref_insert_ne _ _ _ _ _ _ hk] at hx'; exact h _ _ hx'
    | delete k2 v =>
      simp only [refStep, Ref.delete, Ref.update] at hx'
      split at hx'
      · cases hx'
      · exact h _ _ hx'
    | scan clock =>
      simp only [refStep, Ref.afterScan] at hx'
      rw [Option.filter_eq_some_iff] at hx'
      exact h _ _ hx'.1

end Store

/-- C10.  In every history whose TTLs do not overflow the clock, a datum accepted without a TTL is in
every later scan until its key is deleted or inserted again, whatever the clocks read. -/
theorem C10_no_ttl_never_expires (ops0 ops : List Op) (m0 m1 m2 m3 : DBMap) (out1 out : List Datum)
    (now : Int64) (k : DatumKey) (v : DatumValue) (config : Option InsertConfig)
    (clock : DatumKey → Int64) (h0 : Steps [] ops0 m0)
    (hi : Step m0 (.insert now k v config) m1 out1) (h1 : Steps m1 ops m2)
    (hs : Step m2 (.scan clock) m3 out)
    (hc : config = none ∨ ∃ c, config = some c ∧ c.ttl = 0)
    (hsane : ∀ op ∈ ops0, op.NoOverflow) (hno : ∀ op ∈ ops, ¬ op.writes k) :
    (⟨some k, some v⟩ : Datum) ∈ out := by
  obtain ⟨hw0, ha0⟩ := steps_sound h0 wf_nil
  obtain ⟨hw1, ha1⟩ := step_sound hw0 hi
  obtain ⟨hw2, ha2⟩ := steps_sound h1 hw1
  cases hs with
  | scan hr hcl hs =>
    rw [streamAll_eq] at hs
    injection hs with hs
    injection hs with _ h2
    injection h2 with h2 _
    subst h2
    rw [scan_out hw2 hr hcl, ha2]
    have hexp : Ref.expiry now config = 0 := by
      rcases hc with hc | ⟨c, hc, ht⟩
      · rw [hc]; rfl
      · rw [hc]; simp [Ref.expiry, ht]
    have hzero : (0 : Int64).toInt = 0 := by decide
    have key : ∃ x, refStep (abs m0) (.insert now k v config) k = some x ∧ x.expireAt = 0 ∧ x.value = v := by
      simp only [refStep, ref_insert_self, hexp]
      split
      · rename_i old ho
        split
        · rename_i hcond
          refine ⟨old, rfl, ?_, hcond.1⟩
          have hae : abs [] = Ref.empty := rfl
          rw [ha0, hae] at ho
          rcases ref_noOverflow ops0 Ref.empty hsane (by intro k x hx; cases hx) k old ho with h | h
          · exact h
          · have := (near_iff_of_range 0 old.expireAt (by rw [hzero]; omega) (by rw [hzero]; omega)).1 hcond.2
            rw [hzero] at this; omega
        · exact ⟨_, rfl, rfl, rfl⟩
      · exact ⟨_, rfl, rfl, rfl⟩
    obtain ⟨x, hx, hx0, hxv⟩ := key
    exact ⟨x, refRun_keeps ops _ k x hno (Or.inl hx0) (by rw [ha1]; exact hx), Or.inl hx0, hxv⟩

/-! ### C11 -/

/-- C11.  After a delete no scan returns the key until it is inserted again, and the delete leaves
every other key as it was. -/
theorem C11_delete_exact (ops0 ops : List Op) (m0 m1 m2 m3 : DBMap) (out1 out : List Datum)
    (k : DatumKey) (value : Option DatumValue) (clock : DatumKey → Int64)
    (h0 : Steps [] ops0 m0) (hd : Step m0 (.delete k value) m1 out1) (h1 : Steps m1 ops m2)
    (hs : Step m2 (.scan clock) m3 out) (hno : ∀ op ∈ ops, ¬ op.inserts k) :
    (∀ d ∈ out, d.key ≠ some k) ∧ (∀ k', k' ≠ k → m1.get? (encKey k') = m0.get? (encKey k')) := by
  obtain ⟨hw0, _⟩ := steps_sound h0 wf_nil
  obtain ⟨hw1, ha1⟩ := step_sound hw0 hd
  obtain ⟨hw2, ha2⟩ := steps_sound h1 hw1
  constructor
  · intro d hdm hdk
    cases hs with
    | scan hr hcl hs =>
      rw [streamAll_eq] at hs
      injection hs with hs
      injection hs with _ h2
      injection h2 with h2 _
      subst h2
      obtain ⟨e, he, hde⟩ := List.mem_map.1 hdm
      obtain ⟨w, hw, hwe⟩ := List.mem_map.1 he
      obtain ⟨k', v', _, he'⟩ := hw2.entry (AMap.mem_of_get? (range_get? hw2.nodup hr w (List.mem_filter.1 hw).1))
      have hdd : d = ⟨some k', some v'⟩ := by rw [← hde, ← hwe, he']
      rw [hdd] at hdk hdm
      injection hdk with hdk
      subst hdk
      obtain ⟨x, hx, _, _⟩ := (scan_out hw2 hr hcl k' v').1 hdm
      rw [ha2] at hx
      have hx1 := refRun_not_inserts ops _ k' hno x hx
      rw [ha1] at hx1
      simp [refStep, Ref.delete, Ref.update] at hx1
  · intro k' hk'
    cases hd with
    | delete hd =>
      rw [deleteBDMap_eq] at hd
      injection hd with hd
      subst hd
      exact AMap.get?_erase_ne _ (fun e => hk' (encKey_inj e).symm)

/-! ### C12 -/

/-- C12.  For every store, every list of visits and every callback that does not panic: the scan processes some prefix of the visits.  The callback is called for exactly the entries of
that prefix that are not expired, once each and in order, and for no other; the entries removed are
exactly the expired ones of the prefix.  Without a callback error the prefix is everything; with
an error the last entry of the prefix is the one whose callback failed, and that error is
returned. -/
theorem C12_scan_exact {σ : Type} (cb : σ → Entry → Res (σ × Option Err)) (m m' : DBMap) (vs : List Visit)
    (s s' : σ) (e : Option Err)
    (h : loopDBMap cb vs m s = .ok (m', s', e)) :
    ∃ done rest, vs = done ++ rest ∧
      feed cb (liveEntries done) s = .ok (s', e) ∧
      (∀ b, m'.get? b = if b ∈ expiredKeys done then none else m.get? b) ∧
      (e = none → rest = []) ∧
      (∀ err, e = some err → ∃ pre last s1, done = pre ++ [last] ∧ isExpired last.entry last.now = false ∧
        feed cb (liveEntries pre) s = .ok (s1, none) ∧ cb s1 last.entry = .ok (s', some err)) := by
  have main : ∀ (vs : List Visit) (m : DBMap) (s : σ), loopDBMap cb vs m s = .ok (m', s', e) →
      ∃ done rest, vs = done ++ rest ∧ feed cb (liveEntries done) s = .ok (s', e) ∧
      m' = eraseAll m (expiredKeys done) ∧ (e = none → rest = []) ∧
      (∀ err, e = some err → ∃ pre last s1, done = pre ++ [last] ∧ isExpired last.entry last.now = false ∧
        feed cb (liveEntries pre) s = .ok (s1, none) ∧ cb s1 last.entry = .ok (s', some err)) := by
    intro vs
    induction vs with
    | nil =>
      intro m s h
      simp only [loopDBMap, Res.ok.injEq, Prod.mk.injEq] at h
      obtain ⟨h1, h2, h3⟩ := h
      subst h1; subst h2; subst h3
      exact ⟨[], [], rfl, rfl, rfl, fun _ => rfl, by simp⟩
    | cons v vs ih =>
      intro m s h
      rw [loopDBMap] at h
      by_cases hx : isExpired v.entry v.now = true
      · rw [if_pos hx] at h
        obtain ⟨done, rest, h1, h2, h3, h4, h5⟩ := ih _ _ h
        refine ⟨v :: done, rest, by rw [h1]; rfl, ?_, ?_, h4, ?_⟩
        · simpa [liveEntries, hx] using h2
        · rw [h3]; simp [expiredKeys, hx, eraseAll]
        · intro err he
          obtain ⟨pre, last, s1, g1, g2, g3, g4⟩ := h5 err he
          exact ⟨v :: pre, last, s1, by rw [g1]; rfl, g2, by simpa [liveEntries, hx] using g3, g4⟩
      · rw [if_neg hx] at h
        have hx' : isExpired v.entry v.now = false := by simpa using hx
        cases hcb : cb s v.entry with
        | panic => rw [hcb] at h; cases h
        | err x => rw [hcb] at h; cases h
        | ok p =>
          obtain ⟨s1, er⟩ := p
          rw [hcb] at h
          simp only [Res.bind_ok] at h
          cases er with
          | some x =>
            simp only [Res.ok.injEq, Prod.mk.injEq] at h
            obtain ⟨g1, g2, g3⟩ := h
            subst g1; subst g2; subst g3
            refine ⟨[v], vs, rfl, ?_, ?_, by simp, ?_⟩
            · simp [liveEntries, hx', feed, hcb]
            · simp [expiredKeys, hx', eraseAll]
            · intro err he
              injection he with he; subst he
              exact ⟨[], v, s, rfl, hx', rfl, hcb⟩
          | none =>
            obtain ⟨done, rest, h1, h2, h3, h4, h5⟩ := ih _ _ h
            refine ⟨v :: done, rest, by rw [h1]; rfl, ?_, ?_, h4, ?_⟩
            · simp [liveEntries, hx', feed, hcb]; exact h2
            · rw [h3]; simp [expiredKeys, hx']
            · intro err he
              obtain ⟨pre, last, s2, g1, g2, g3, g4⟩ := h5 err he
              refine ⟨v :: pre, last, s2, by rw [g1]; rfl, g2, ?_, g4⟩
              simp [liveEntries, hx', feed, hcb]; exact g3
  obtain ⟨done, rest, h1, h2, h3, h4, h5⟩ := main vs m s h
  exact ⟨done, rest, h1, h2, fun b => by rw [h3, get?_eraseAll], h4, h5⟩

/-- C12, the callback's view of a complete scan: a recording callback sees a permutation of the live
entries of the store (those whose visit is not expired). -/
theorem C12_scan_sees_live_once (m : DBMap) (vs : List Visit) (hr : IsRange m vs) :
    ∃ m', streamAll vs m = .ok (m', (liveEntries vs).map (·.datum), none) ∧
      (∀ v ∈ vs, v.entry.datum ∈ (liveEntries vs).map (·.datum) ∨ isExpired v.entry v.now = true) ∧
      (liveEntries vs).length + (expiredKeys vs).length = m.length := by
  refine ⟨_, streamAll_eq vs m, ?_, ?_⟩
  · intro v hv
    by_cases hx : isExpired v.entry v.now = true
    · exact Or.inr hx
    · exact Or.inl (List.mem_map.2 ⟨v.entry, List.mem_map.2 ⟨v, List.mem_filter.2 ⟨hv, by simpa using hx⟩, rfl⟩, rfl⟩)
  · have : vs.length = m.length := by simpa using hr.length_eq
    rw [← this, liveEntries, expiredKeys, List.length_map, List.length_map]
    clear hr this
    induction vs with
    | nil => rfl
    | cons v vs ih =>
      cases hx : isExpired v.entry v.now <;> simp [hx] <;> omega

/-- A scan of three entries, one expired, with a callback that fails on the second live one. -/
example :
    let e1 : Entry := ⟨0, ⟨some (exKey 1), some (exVal 1)⟩⟩
    let e2 : Entry := ⟨500, ⟨some (exKey 2), some (exVal 2)⟩⟩
    let e3 : Entry := ⟨2000, ⟨some (exKey 3), some (exVal 3)⟩⟩
    let m : DBMap := [([1], e1), ([2], e2), ([3], e3)]
    let cb : Nat → Entry → Res (Nat × Option Err) := fun n _ => .ok (n + 1, if n = 1 then some (.other 7) else none)
    loopDBMap cb [⟨[3], e3, 1000⟩, ⟨[2], e2, 1000⟩, ⟨[1], e1, 1000⟩] m 0 =
      .ok ([([1], e1), ([3], e3)], 2, some (.other 7)) := rfl

/-! ### C14 -/

namespace Store
theorem ref_longer_ttl (r : Ref.RefMap) (now : Int64) (k : DatumKey) (v : DatumValue) (t1 t2 : UInt64)
    (x1 x2 : Ref.Rec) (h1 : t1 ≠ 0) (h12 : t1 ≤ t2) (hlo : 10 ≤ now.toInt + t1.toNat)
    (hhi : now.toInt + t2.toNat ≤ 2^63 - 11)
    (e1 : Ref.insert r now k v (some ⟨t1, 0⟩) k = some x1) (e2 : Ref.insert r now k v (some ⟨t2, 0⟩) k = some x2) :
    x1.expireAt ≤ x2.expireAt := by
  have hle : t1.toNat ≤ t2.toNat := UInt64.le_iff_toNat_le.1 h12
  have h2 : t2 ≠ 0 := by
    intro h; subst h
    have : t1.toNat ≤ 0 := hle
    exact h1 (UInt64.toNat_inj.1 (by simpa using this))
  have hx1 : Ref.expiry now (some ⟨t1, 0⟩) = now + t1.toInt64 := by simp [Ref.expiry, h1]
  have hx2 : Ref.expiry now (some ⟨t2, 0⟩) = now + t2.toInt64 := by simp [Ref.expiry, h2]
  have ht1 := add_ttl now t1 (by omega)
  have ht2 := add_ttl now t2 (by omega)
  rw [Int64.le_iff_toInt_le]
  rw [ref_insert_self, hx1] at e1
  rw [ref_insert_self, hx2] at e2
  cases hr : r k with
  | none =>
    simp [hr] at e1 e2
    rw [← e1, ← e2]; simp only [ht1, ht2]; omega
  | some old =>
    simp only [hr] at e1 e2
    have n1 := near_iff_of_range (now + t1.toInt64) old.expireAt (by omega) (by omega)
    have n2 := near_iff_of_range (now + t2.toInt64) old.expireAt (by omega) (by omega)
    rw [ht1] at n1
    rw [ht2] at n2
    split at e1 <;> split at e2 <;> injection e1 with e1 <;> injection e2 with e2 <;> rw [← e1, ← e2]
    · omega
    · rename_i c1 c2
      simp only [ht2]
      have := n1.1 c1.2
      have c2' : ¬ Ref.near (now + t2.toInt64) old.expireAt := fun hh => c2 ⟨c1.1, hh⟩
      rw [n2] at c2'; omega
    · rename_i c1 c2
      simp only [ht1]
      have := n2.1 c2.2
      have c1' : ¬ Ref.near (now + t1.toInt64) old.expireAt := fun hh => c1 ⟨c2.1, hh⟩
      rw [n1] at c1'; omega
    · simp only [ht1, ht2]; omega

end Store

/-- C14, full statement: if the same datum is inserted into the same store at the same time, then with the
larger nonzero TTL it expires no earlier (0 = never).  FALSE: `int64(TTL)` overflows. -/
def C14_longer_ttl_statement : Prop :=
  ∀ (ops : List Op) (m m1 m2 : DBMap) (now : Int64) (k : DatumKey) (v : DatumValue) (t1 t2 : UInt64)
    (b1 b2 : Bool) (e1 e2 : Entry),
    Steps [] ops m → 0 ≤ now.toInt → t1 ≠ 0 → t1 ≤ t2 →
    insertBDMap now m (some ⟨some k, some v⟩) (some ⟨t1, 0⟩) = .ok (m1, b1) →
    insertBDMap now m (some ⟨some k, some v⟩) (some ⟨t2, 0⟩) = .ok (m2, b2) →
    m1.get? (encKey k) = some e1 → m2.get? (encKey k) = some e2 →
    e2.expireAt = 0 ∨ e1.expireAt ≤ e2.expireAt

/-- C14, partial: true whenever the larger TTL does not overflow the clock, for inserts into any
reachable store (including one that already holds the datum).  Missing: TTLs beyond
2^63 - now - 11, for which it fails. -/
theorem C14_longer_ttl_partial (ops : List Op) (m m1 m2 : DBMap) (now : Int64) (k : DatumKey) (v : DatumValue)
    (t1 t2 : UInt64) (b1 b2 : Bool) (e1 e2 : Entry)
    (hs : Steps [] ops m) (h1 : t1 ≠ 0) (h12 : t1 ≤ t2)
    (hlo : 10 ≤ now.toInt + t1.toNat) (hhi : now.toInt + t2.toNat ≤ 2^63 - 11)
    (hi1 : insertBDMap now m (some ⟨some k, some v⟩) (some ⟨t1, 0⟩) = .ok (m1, b1))
    (hi2 : insertBDMap now m (some ⟨some k, some v⟩) (some ⟨t2, 0⟩) = .ok (m2, b2))
    (hg1 : m1.get? (encKey k) = some e1) (hg2 : m2.get? (encKey k) = some e2) :
    e1.expireAt ≤ e2.expireAt := by
  obtain ⟨hw, _⟩ := steps_sound hs wf_nil
  have key : ∀ (t : UInt64) (m' : DBMap) (b : Bool) (e : Entry),
      insertBDMap now m (some ⟨some k, some v⟩) (some ⟨t, 0⟩) = .ok (m', b) →
      m'.get? (encKey k) = some e → ∃ v', Ref.insert (abs m) now k v (some ⟨t, 0⟩) k = some ⟨v', e.expireAt⟩ := by
    intro t m' b e hi hg
    obtain ⟨hw', ha'⟩ := step_sound hw (.insert hi)
    obtain ⟨k', v', hb, he'⟩ := hw'.entry (AMap.mem_of_get? hg)
    have hk := encKey_inj hb
    subst hk
    exact ⟨v', by rw [← (abs_some_iff hw' k v' e.expireAt).2 (by rw [hg, ← he']), ha']; rfl⟩
  obtain ⟨v1, hr1⟩ := key t1 m1 b1 e1 hi1 hg1
  obtain ⟨v2, hr2⟩ := key t2 m2 b2 e2 hi2 hg2
  exact ref_longer_ttl (abs m) now k v t1 t2 _ _ h1 h12 hlo hhi hr1 hr2

/-- Inserting into the empty store with any TTL stores the wrapped expiry. -/
theorem Store.insert_empty (now : Int64) (k : DatumKey) (v : DatumValue) (c : Option InsertConfig) :
    insertBDMap now [] (some ⟨some k, some v⟩) c =
      .ok ([(encKey k, ⟨expireAtOf now c, ⟨some k, some v⟩⟩)], true) := by
  simp [insertBDMap, getKeyAsBytes_some, encodeToString, AMap.set, AMap.erase]

theorem Store.get?_single (b : Bytes) (e : Entry) : AMap.get? [(b, e)] b = some e := by simp [AMap.get?]

theorem C14_longer_ttl_fails : ¬ C14_longer_ttl_statement := by
  intro h
  have := h [] [] _ _ 1000 (exKey 1) (exVal 1) 60 9223372036854775808 _ _ _ _ .nil (by decide) (by decide) (by decide)
    (insert_empty _ _ _ _) (insert_empty _ _ _ _) (get?_single _ _) (get?_single _ _)
  revert this
  decide

/-- With a TTL of 2^63 seconds the datum is expired the moment it is inserted. -/
theorem C14_huge_ttl_dead_on_arrival :
    ∃ m e, insertBDMap 1000 [] (some ⟨some (exKey 1), some (exVal 1)⟩) (some ⟨9223372036854775808, 0⟩) = .ok (m, true) ∧
      m.get? (encKey (exKey 1)) = some e ∧ isExpired e 1000 = true :=
  ⟨_, _, insert_empty _ _ _ _, get?_single _ _, by decide⟩

/-- Why C10 needs the overflow condition: with a TTL of 2^64 - 995 at time 1000 the stored expiry
wraps to 5, and inserting the same datum later without a TTL keeps that entry: the insert is
acknowledged, nothing is stored, and the datum is expired. -/
theorem C10_overflow_corner :
    ∃ m e, insertBDMap 1000 [] (some ⟨some (exKey 1), some (exVal 1)⟩) (some ⟨18446744073709550621, 0⟩) = .ok (m, true) ∧
      insertBDMap 1001 m (some ⟨some (exKey 1), some (exVal 1)⟩) none = .ok (m, false) ∧
      m.get? (encKey (exKey 1)) = some e ∧ isExpired e 1002 = true := by
  refine ⟨_, _, insert_empty _ _ _ _, ?_, get?_single _ _, by decide⟩
  have : closeEnough (expireAtOf 1001 none) (expireAtOf 1000 (some ⟨18446744073709550621, 0⟩)) = true := by decide
  simp [insertBDMap, getKeyAsBytes_some, getValueAsBytes_some, encodeToString, get?_single, this]

end Veri
