import Verif.Process.Limits
/-
How complete and how fresh the index is: C132, C133.
-/
set_option autoImplicit false
namespace Veri
open Gencoder Proc
open Store hiding Label

/-- Some query with the default settings returns `d` through the index, if the library answers with suitable positions out of
those at which vectors were added. -/
def Ref.Findable (E : Env) (dt : Data) (d : Datum) : Prop :=
  ∃ (a : Annoyer) (answer : List Nat) (q : Datum) (out : Search.Collector), dt.annoyer = some a ∧ a.dataIndex ≠ [] ∧
    (∀ p ∈ answer, ∃ v, (p, v) ∈ a.items) ∧ Search.searchAnnoy E [] answer dt q none = .ok (dt, out) ∧
    ∃ sd ∈ out.list, sd.datum = d

namespace Proc

/-- The elements of the slice, by what the scan met. -/
def Placed (i : Inst) : Prop := ∀ p, i.slots.lookup p = if p < i.size then i.met[p]?.map (·.datum) else none

theorem placed_meet {P : PEnv} {dt : Data} {i : Inst} {e : Entry} {k : DatumKey} (h : Placed i) (ha : dt.alive = true)
    (hn : i.stats.n.toNat = i.met.length) : Placed (meetEntry P dt i e k) := by
  intro p
  have hp := h p
  simp only [meetEntry, ha, Bool.true_and, decide_eq_true_eq, hn]
  by_cases hlt : i.met.length < i.size
  · rw [if_pos hlt]
    by_cases hpe : p = i.met.length
    · subst hpe
      simp [List.lookup, hlt]
    · have hb : (p == i.met.length) = false := by simpa using hpe
      simp only [List.lookup, hb]
      rw [hp]
      by_cases hps : p < i.size
      · rw [if_pos hps, if_pos hps]
        by_cases hpl : p < i.met.length
        · rw [List.getElem?_append_left hpl]
        · rw [List.getElem?_eq_none (by omega), List.getElem?_eq_none (by simp; omega)]
      · rw [if_neg hps, if_neg hps]
  · rw [if_neg hlt, hp]
    by_cases hps : p < i.size
    · rw [if_pos hps, if_pos hps, List.getElem?_append_left (by omega)]
    · rw [if_neg hps, if_neg hps]

theorem placed_reach {P : PEnv} {dt : Data} {now : Int64} (hi : dt.initialized = true) (hwf : WF0 dt.dbMap)
    (hlen : dt.dbMap.length < 2 ^ 64) {s : PS} (h : Reach P false (initial dt now) s) (ha : s.dt.alive = true) :
    ∀ i ∈ s.insts, Placed i := by
  revert ha
  refine reach_inv (fun s => s.dt.alive = true → ∀ i ∈ s.insts, Placed i) (by simp [initial]) ?_ h
  intro s s' l hr ih hs ha
  have ha0 := (sstep_alive hs (basic_reach hi hr).1).2.1 ha
  have ih := ih ha0
  have hfresh : ∀ i : Inst, i.slots = [] → i.met = [] → ∀ x ∈ s.insts ++ [i], Placed x := by
    intro i h0 h1 x hx
    rcases List.mem_append.1 hx with hx | hx
    · exact ih x hx
    · rw [List.mem_singleton.1 hx]
      intro p
      simp [h0, h1]
  cases hs with
  | run _ hf => exact hfresh _ hf.slots hf.met
  | closeRun _ _ _ hf => exact hfresh _ hf.slots hf.met
  | @act j i i' a dt' acks hj hst =>
    have hm := ih i (List.mem_of_getElem? hj)
    intro x hx
    rcases mem_set_list hx with rfl | hx
    · cases hst with
      | @meet k e key =>
        have hn : i.stats.n.toNat = i.met.length := by
          have h1 := met_length_le ((mapInv_reach hwf hr).inst i (List.mem_of_getElem? hj))
          rw [((basic_reach hi hr).2.2 i (List.mem_of_getElem? hj)).n, UInt64.toNat_ofNat']
          omega
        exact placed_meet (P := P) (e := e) (k := key) hm ha0 hn
      | _ => exact hm
    · exact ih x hx
  | _ => exact ih

/-- A run, once begun, keeps its number and the length of its slice. -/
theorem inst_kept {P : PEnv} {W : Bool} {s s' : PS} (h : Reach P W s s') {j : Nat} {i : Inst} (hj : s.insts[j]? = some i) :
    ∃ i', s'.insts[j]? = some i' ∧ i'.size = i.size := by
  refine reach_inv (fun t => ∃ i', t.insts[j]? = some i' ∧ i'.size = i.size) ⟨i, hj, rfl⟩ ?_ h
  rintro s s' l _ ⟨i1, hj1, hz⟩ hs
  have happ : ∀ x : Inst, (s.insts ++ [x])[j]? = some i1 := by
    intro x
    obtain ⟨hlt, _⟩ := List.getElem?_eq_some_iff.1 hj1
    rw [List.getElem?_append_left hlt]; exact hj1
  cases hs with
  | run _ _ => exact ⟨i1, happ _, hz⟩
  | closeRun _ _ _ _ => exact ⟨i1, happ _, hz⟩
  | @act j' i0 i' a dt' acks hj' hst =>
    by_cases hjj : j' = j
    · subst hjj
      rw [hj1] at hj'
      cases hj'
      obtain ⟨hlt, _⟩ := List.getElem?_eq_some_iff.1 hj1
      refine ⟨i', by simp [List.getElem?_set, hlt], ?_⟩
      rw [← hz]
      cases hst <;> rfl
    · exact ⟨i1, by simp [List.getElem?_set, hjj, hj1], hz⟩
  | _ => exact ⟨i1, hj1, hz⟩

/-- The run begun by this step. -/
theorem begun {P : PEnv} {W : Bool} {s0 s1 : PS} {infos : SourceId → Option DataInfo} {order : List SourceId}
    (hb : step P W s0 (.run infos order) = some s1) (hlt : s0.insts.length < s1.insts.length) :
    ∃ i, s1.insts[s0.insts.length]? = some i ∧ Fresh P s0.now s0.dt infos order i ∧ s1.dt.dbMap = s0.dt.dbMap ∧
      s1.insts = s0.insts ++ [i] := by
  cases sstep_of hb with
  | runOff => exact absurd hlt (Nat.lt_irrefl _)
  | run _ hf => exact ⟨_, by simp, hf, rfl, rfl⟩

/-- What the run `j` met after this state was stored in this state, if nobody else writes. -/
theorem met_from {P : PEnv} {s s' : PS} (h : Reach P false s s') {j : Nat} {i : Inst} (hi : s.dt.initialized = true)
    (hj : s.insts[j]? = some i) (h0 : ∀ e ∈ i.met, ∃ k, s.dt.dbMap.get? k = some e) :
    s'.dt.initialized = true ∧ (∀ k e, s'.dt.dbMap.get? k = some e → s.dt.dbMap.get? k = some e) ∧
      ∀ i', s'.insts[j]? = some i' → ∀ e ∈ i'.met, ∃ k, s.dt.dbMap.get? k = some e := by
  refine reach_inv (fun t => t.dt.initialized = true ∧ (∀ k e, t.dt.dbMap.get? k = some e → s.dt.dbMap.get? k = some e) ∧
      (∃ i', t.insts[j]? = some i') ∧ ∀ i', t.insts[j]? = some i' → ∀ e ∈ i'.met, ∃ k, s.dt.dbMap.get? k = some e)
    ⟨hi, fun _ _ h => h, ⟨i, hj⟩, fun i' h => by rw [hj] at h; cases h; exact h0⟩ ?_ h |>.imp id (And.imp id And.right)
  rintro t t' l _ ⟨hini, hsub, ⟨i1, hj1⟩, hmet⟩ hs
  have hini' := (sstep_alive hs hini).1
  have hid : t.dt.initData = t.dt := Data.initData_of_initialized hini
  have happ : ∀ x : Inst, (t.insts ++ [x])[j]? = some i1 := by
    intro x
    obtain ⟨hlt, _⟩ := List.getElem?_eq_some_iff.1 hj1
    rw [List.getElem?_append_left hlt]; exact hj1
  have happ' : ∀ x i' : Inst, (t.insts ++ [x])[j]? = some i' → ∀ e ∈ i'.met, ∃ k, s.dt.dbMap.get? k = some e := by
    intro x i' hi'
    rw [happ] at hi'
    cases hi'
    exact hmet _ hj1
  have her : ∀ b k e, (t.dt.dbMap.erase b).get? k = some e → s.dt.dbMap.get? k = some e := by
    intro b k e he
    rw [AMap.get?_erase] at he
    split at he
    · cases he
    · exact hsub k e he
  cases hs with
  | setSources => exact ⟨hini', by rw [hid]; exact hsub, ⟨i1, hj1⟩, hmet⟩
  | run _ _ => exact ⟨hini', hsub, ⟨i1, happ _⟩, happ' _⟩
  | closeRun _ _ _ _ => exact ⟨hini', hsub, ⟨i1, happ _⟩, happ' _⟩
  | @act j' i0 i' a dt' acks hj' hst =>
    obtain ⟨hlt, _⟩ := List.getElem?_eq_some_iff.1 hj1
    have hex : ∃ x, (t.insts.set j' i')[j]? = some x := ⟨_, List.getElem?_eq_getElem (by simpa using hlt)⟩
    have hset : ((∀ e ∈ i0.met, ∃ k, s.dt.dbMap.get? k = some e) → ∀ e ∈ i'.met, ∃ k, s.dt.dbMap.get? k = some e) →
        ∀ x, (t.insts.set j' i')[j]? = some x → ∀ e ∈ x.met, ∃ k, s.dt.dbMap.get? k = some e := by
      intro hh x hx
      by_cases hjj : j' = j
      · subst hjj
        rw [List.getElem?_set_self hlt] at hx
        cases hx
        exact hh (hmet _ hj')
      · rw [List.getElem?_set_ne hjj] at hx
        exact hmet x hx
    cases hst with
    | @meet k e key hp he hns hx hk =>
      refine ⟨hini', hsub, hex, hset fun h0 e' he' => ?_⟩
      simp only [meetEntry, List.mem_append, List.mem_singleton] at he'
      rcases he' with he' | rfl
      · exact h0 e' he'
      · exact ⟨k, hsub k _ he⟩
    | purge => exact ⟨hini', her _, hex, hset id⟩
    | evict => exact ⟨hini', her _, hex, hset id⟩
    | _ => exact ⟨hini', hsub, hex, hset id⟩
  | write hW _ => cases hW
  | delete hW _ => cases hW
  | _ => exact ⟨hini', hsub, ⟨i1, hj1⟩, hmet⟩

theorem mem_lookup {l : List (Nat × Datum)} {p : Nat} {d : Datum} (h : l.lookup p = some d) : (p, d) ∈ l := mem_of_lookup h

/-- A datum in the index, with a vector, can be found. -/
theorem findable_of {E : Env} {dt : Data} {i : Inst} {p : Nat} {d : Datum} {k : DatumKey} (hk : d.key = some k)
    (hp : p < i.size) (hl : i.slots.lookup p = some d) (ha : dt.annoyer = some ⟨dataIndex i, indexItems i⟩) :
    Ref.Findable E dt d := by
  have hget : (dataIndex i)[p]? = some (some d) := by
    simp only [dataIndex, List.getElem?_map, List.getElem?_range hp, Option.map_some, hl]
  have hne : dataIndex i ≠ [] := by intro h0; rw [h0] at hget; cases hget
  refine ⟨_, [p], d, { Search.newCollector Search.defaultSearchConfig with
    list := [⟨(Search.newCollector Search.defaultSearchConfig).scoreFunc.eval E.o k.feature k.feature, d⟩] }, ha, hne, ?_, ?_, ?_⟩
  · intro q hq
    rw [List.mem_singleton.1 hq]
    exact ⟨k.feature, List.mem_filterMap.2 ⟨(p, d), mem_lookup hl, by simp [hk]⟩⟩
  · unfold Search.searchAnnoy
    rw [ha]
    simp only
    rw [if_neg (by simpa using hne)]
    simp [hk, Res.ofOption_some, Search.annoyLoop, hget, Search.Collector.passesFilters, Search.newCollector,
      Search.defaultSearchConfig, Res.bind_ok, Option.getD]
  · exact ⟨_, List.mem_singleton_self _, rfl⟩

theorem not_findable {E : Env} {dt : Data} {d : Datum} {a : Annoyer} (ha : dt.annoyer = some a) (h : some d ∉ a.dataIndex) :
    ¬ Ref.Findable E dt d := by
  rintro ⟨a', answer, q, out, ha', hne, _, hs, sd, hsd, rfl⟩
  rw [ha] at ha'
  cases ha'
  exact h (searchAnnoy_mem ha hne hs sd hsd).1

theorem map_nodup {α β : Type} {f : (Bytes × α) → β} {m : List (Bytes × α)} (hn : (m.map (·.1)).Nodup)
    (h : ∀ p ∈ m, ∀ q ∈ m, f p = f q → p = q) : (m.map f).Nodup := by
  induction m with
  | nil => exact List.nodup_nil
  | cons p m ih =>
    simp only [List.map_cons, List.nodup_cons] at hn ⊢
    refine ⟨?_, ih hn.2 fun p hp q hq => h p (List.mem_cons_of_mem _ hp) q (List.mem_cons_of_mem _ hq)⟩
    intro hc
    obtain ⟨q, hq, hqp⟩ := List.mem_map.1 hc
    have := h q (List.mem_cons_of_mem _ hq) p List.mem_cons_self hqp
    subst this
    exact hn.1 (List.mem_map.2 ⟨_, hq, rfl⟩)

/-- Different entries of a map hold different data. -/
theorem data_inj {m : DBMap} (h : WF0 m) : ∀ p ∈ m, ∀ q ∈ m, p.2.datum = q.2.datum → p = q := by
  intro p hp q hq hpq
  obtain ⟨a, ha, hka⟩ := h.keyed p.1 p.2 hp
  obtain ⟨b, hb, hkb⟩ := h.keyed q.1 q.2 hq
  rw [hpq, hb] at ha
  cases ha
  have h1 := AMap.get?_of_mem h.nodup (show (p.1, p.2) ∈ m from hp)
  have h2 := AMap.get?_of_mem h.nodup (show (q.1, q.2) ∈ m from hq)
  rw [hka] at h1
  rw [hkb, h1] at h2
  exact Prod.ext (hka.trans hkb.symm) (Option.some.inj h2)

end Proc

/-! ### C132 -/

/-- C132, full statement: when a run comes to its end in an open data set into which nobody else writes during maintenance,
everything stored and alive can be found through the index.  FALSE of the code: the index has room for 1000 data or as many as the
run before counted. -/
def C132_index_covers_statement : Prop :=
  ∀ (P : PEnv) (E : Env) (c : DataConfig) (now0 : Int64) (dt : Data) (now : Int64) (s s' : PS) (j : Nat),
    Reach P true (initial (Data.newData c) now0) (initial dt now) → Reach P false (initial dt now) s →
    step P false s (.act j .endScan) = some s' → s'.dt.alive = true →
    ∀ k e, s'.dt.dbMap.get? k = some e → isExpired e s'.now = false → Ref.Findable E s'.dt e.datum

/-- C132, exactly.  `s0` is the state in which the run begins, `s'` the one in which it ends: the run meets everything that is stored
at its end, and nothing that was not stored at its beginning; it reports how many data it met; and what can be found is the first
1000 of them, or as many as were reported when it began if these are more.  A run that meets nothing keeps the old index. -/
theorem C132_index_covers_exact (P : PEnv) (dt : Data) (now : Int64) (hi : dt.initialized = true) (hwf : WF0 dt.dbMap)
    (hlen : dt.dbMap.length < 2 ^ 64) (s0 s1 s s' : PS) (infos : SourceId → Option DataInfo) (order : List SourceId)
    (h0 : Reach P false (initial dt now) s0) (hb : step P false s0 (.run infos order) = some s1)
    (hlt : s0.insts.length < s1.insts.length) (h1 : Reach P false s1 s)
    (hs : step P false s (.act s0.insts.length .endScan) = some s') (ha : s'.dt.alive = true) (hn : s0.dt.n.toNat < 2 ^ 63) :
    ∃ met : List Entry, met.Nodup ∧ met.length = s'.dt.n.toNat ∧
      (∀ k e, s'.dt.dbMap.get? k = some e → e ∈ met) ∧ (∀ e ∈ met, ∃ k, s0.dt.dbMap.get? k = some e) ∧
      (met = [] → s'.dt.annoyer = s.dt.annoyer) ∧
      (met ≠ [] → ∀ E d, Ref.Findable E s'.dt d ↔ ∃ e ∈ met.take (max 1000 s0.dt.n.toNat), e.datum = d) := by
  obtain ⟨i0, hj0, hf, hmap, _⟩ := begun hb hlt
  obtain ⟨i, hj, hz⟩ := inst_kept h1 hj0
  have hr1 : Reach P false (initial dt now) s1 := .step _ h0 hb
  have hr := reach_trans hr1 h1
  have hmi := mapInv_reach hwf hr
  have hii := hmi.inst i (List.mem_of_getElem? hj)
  have hfrom := met_from h1 (basic_reach hi hr1).1 hj0 (by rw [hf.met]; simp)
  obtain ⟨hc1, hc2, _⟩ := C43_reported_size P dt now hi hwf hlen s s' _ i hr hj hs
  have hsize : i.size = max 1000 s0.dt.n.toNat := by rw [hz, hf.sizeEq, if_pos hn]
  have hst := sstep_of hs
  have ha0 : s.dt.alive = true := (sstep_alive hst (basic_reach hi hr).1).2.1 ha
  have hpl := placed_reach hi hwf hlen hr ha0 i (List.mem_of_getElem? hj)
  cases hst with
  | @act j' i' i'' a dt' acks hj' hst =>
    rw [hj] at hj'
    cases hj'
    cases hst with
    | endScan hp hall =>
      have hemp : i.slots = [] ↔ i.met = [] := by
        constructor
        · intro h
          have := hpl 0
          rw [h, if_pos (by omega)] at this
          cases hm : i.met with
          | nil => rfl
          | cons e es => rw [hm] at this; simp at this
        · intro h
          cases hsl : i.slots with
          | nil => rfl
          | cons q qs =>
            have := hpl q.1
            rw [h, hsl] at this
            simp [List.lookup] at this
      refine ⟨i.met, hii.nodup, hc1.symm, ?_, ?_, ?_, ?_⟩
      · intro k e he
        exact (endScan_met hii hmi.wf hmi.sub (hall.resolve_left (by decide))).1 (k, e) (AMap.mem_of_get? he)
      · rw [← hmap]; exact hfrom.2.2 i hj
      · intro h
        simp only [finish, hemp.2 h, List.isEmpty_nil, if_true]
      · intro hne E d
        have hann : (finish s.now s.dt i).annoyer = some ⟨dataIndex i, indexItems i⟩ := by
          simp only [finish]
          rw [if_neg]
          rw [List.isEmpty_iff]
          exact fun h => hne (hemp.1 h)
        constructor
        · intro hfd
          apply Classical.byContradiction
          intro hno
          refine not_findable hann ?_ hfd
          intro hmem
          simp only [dataIndex, List.mem_map, List.mem_range] at hmem
          obtain ⟨p, hp, hlk⟩ := hmem
          rw [hpl p, if_pos hp] at hlk
          obtain ⟨e, he, rfl⟩ := Option.map_eq_some_iff.1 hlk
          refine hno ⟨e, ?_, rfl⟩
          rw [← hsize]
          exact List.mem_of_getElem? (i := p) (by rw [List.getElem?_take_of_lt hp]; exact he)
        · rintro ⟨e, he, rfl⟩
          obtain ⟨p, hp⟩ := List.getElem?_of_mem he
          rw [← hsize, List.getElem?_take] at hp
          split at hp
          · rename_i hps
            obtain ⟨⟨k, hk, _⟩, _⟩ := hii.metLive e (List.mem_of_getElem? hp)
            obtain ⟨key, hkey, _⟩ := key_of_get? hwf hk
            exact findable_of hkey hps (by rw [hpl p, if_pos hps, hp]; rfl) hann
          · cases hp

/-- C132, what holds: if the run reports no more than 1000 data, or no more than were reported when it began, everything stored is
found.  Missing: larger data sets that have grown since the run before (`C132_index_covers_fails`). -/
theorem C132_index_covers_partial (P : PEnv) (E : Env) (dt : Data) (now : Int64) (hi : dt.initialized = true) (hwf : WF0 dt.dbMap)
    (hlen : dt.dbMap.length < 2 ^ 64) (s0 s1 s s' : PS) (infos : SourceId → Option DataInfo) (order : List SourceId)
    (h0 : Reach P false (initial dt now) s0) (hb : step P false s0 (.run infos order) = some s1)
    (hlt : s0.insts.length < s1.insts.length) (h1 : Reach P false s1 s)
    (hs : step P false s (.act s0.insts.length .endScan) = some s') (ha : s'.dt.alive = true) (hn : s0.dt.n.toNat < 2 ^ 63)
    (hfit : s'.dt.n.toNat ≤ 1000 ∨ s'.dt.n ≤ s0.dt.n) :
    ∀ k e, s'.dt.dbMap.get? k = some e → Ref.Findable E s'.dt e.datum := by
  obtain ⟨met, _, h2, h3, _, _, h5⟩ := C132_index_covers_exact P dt now hi hwf hlen s0 s1 s s' infos order h0 hb hlt h1 hs ha hn
  intro k e he
  have hm := h3 k e he
  have hfit : met.length ≤ max 1000 s0.dt.n.toNat := by
    rcases hfit with h | h
    · omega
    · have := UInt64.le_iff_toNat_le.1 h; omega
  refine (h5 (List.ne_nil_of_mem hm) E _).2 ⟨e, ?_, rfl⟩
  rw [List.take_of_length_le hfit]
  exact hm

/-- C132: a second run makes up for it.  If some run has come to its end, a run that begins later leaves everything stored
findable. -/
theorem C132_second_run_partial (P : PEnv) (E : Env) (dt : Data) (now : Int64) (hi : dt.initialized = true) (hwf : WF0 dt.dbMap)
    (hlen : dt.dbMap.length < 2 ^ 63) (s0 s1 s s' : PS) (infos : SourceId → Option DataInfo) (order : List SourceId)
    (h0 : Reach P false (initial dt now) s0) (hfin : ∃ i ∈ s0.insts, i.phase = .finished)
    (hb : step P false s0 (.run infos order) = some s1) (hlt : s0.insts.length < s1.insts.length) (h1 : Reach P false s1 s)
    (hs : step P false s (.act s0.insts.length .endScan) = some s') (ha : s'.dt.alive = true) (hn : s0.dt.n.toNat < 2 ^ 63) :
    ∀ k e, s'.dt.dbMap.get? k = some e → Ref.Findable E s'.dt e.datum := by
  have hlen' : dt.dbMap.length < 2 ^ 64 := by omega
  refine C132_index_covers_partial P E dt now hi hwf hlen' s0 s1 s s' infos order h0 hb hlt h1 hs ha hn (.inr ?_)
  obtain ⟨met, hnd, h2, _, h3, _⟩ := C132_index_covers_exact P dt now hi hwf hlen' s0 s1 s s' infos order h0 hb hlt h1 hs ha hn
  have hsz := size_reach hi hwf hlen' h0 hfin
  rw [UInt64.le_iff_toNat_le, ← h2]
  refine Nat.le_trans ?_ hsz
  have := nodup_length_le (m := s0.dt.dbMap.map (·.2)) hnd (fun e he => by
    obtain ⟨k, hk⟩ := h3 e he
    exact List.mem_map.2 ⟨(k, e), AMap.mem_of_get? hk, rfl⟩)
  simpa using this

/-- C132: whenever more data are stored at the end of a run than 1000 and than were reported when it began, some of them cannot be
found, whatever the library answers. -/
theorem C132_index_misses (P : PEnv) (dt : Data) (now : Int64) (hi : dt.initialized = true) (hwf : WF0 dt.dbMap)
    (hlen : dt.dbMap.length < 2 ^ 64) (s0 s1 s s' : PS) (infos : SourceId → Option DataInfo) (order : List SourceId)
    (h0 : Reach P false (initial dt now) s0) (hb : step P false s0 (.run infos order) = some s1)
    (hlt : s0.insts.length < s1.insts.length) (h1 : Reach P false s1 s)
    (hs : step P false s (.act s0.insts.length .endScan) = some s') (ha : s'.dt.alive = true) (hn : s0.dt.n.toNat < 2 ^ 63)
    (hmany : max 1000 s0.dt.n.toNat < s'.dt.dbMap.length) :
    ∃ k e, s'.dt.dbMap.get? k = some e ∧ ∀ E, ¬ Ref.Findable E s'.dt e.datum := by
  obtain ⟨met, _, h2, h3, _, _, h5⟩ := C132_index_covers_exact P dt now hi hwf hlen s0 s1 s s' infos order h0 hb hlt h1 hs ha hn
  have hr' : Reach P false (initial dt now) s' := .step _ (reach_trans (.step _ h0 hb) h1) hs
  have hw := (mapInv_reach hwf hr').wf
  have hne : met ≠ [] := by
    rintro rfl
    cases hm : s'.dt.dbMap with
    | nil => rw [hm, List.length_nil] at hmany; omega
    | cons p m =>
      have := h3 p.1 p.2 (AMap.get?_of_mem hw.nodup (by rw [hm]; exact List.mem_cons_self))
      cases this
  apply Classical.byContradiction
  intro hno
  have hall : ∀ p ∈ s'.dt.dbMap, p.2.datum ∈ (met.take (max 1000 s0.dt.n.toNat)).map (·.datum) := by
    intro p hp
    apply Classical.byContradiction
    intro hnot
    refine hno ⟨p.1, p.2, AMap.get?_of_mem hw.nodup hp, fun E hf => hnot ?_⟩
    obtain ⟨e, he, hd⟩ := (h5 hne E _).1 hf
    exact List.mem_map.2 ⟨e, he, hd⟩
  have hnd := map_nodup (f := fun p => p.2.datum) (show (s'.dt.dbMap.map (·.1)).Nodup from hw.nodup) (data_inj hw)
  have := nodup_length_le hnd (fun d hd => by
    obtain ⟨p, hp, rfl⟩ := List.mem_map.1 hd
    exact hall p hp)
  simp only [List.length_map, List.length_take] at this
  omega

namespace Proc

/-- A run in an open data set can come to its end. -/
theorem can_end {P : PEnv} {dt : Data} {now : Int64} (hi : dt.initialized = true) (hwf : WF0 dt.dbMap) :
    ∀ (n : Nat) (s : PS) (j : Nat) (i : Inst), Reach P false (initial dt now) s → s.dt.alive = true → s.insts[j]? = some i →
    i.phase ≠ .finished → work s.dt.dbMap i ≤ n →
    ∃ t t', Reach P false s t ∧ step P false t (.act j .endScan) = some t' ∧ t'.dt.alive = true := by
  intro n
  induction n with
  | zero =>
    intro s j i h ha hj hnf hw
    obtain ⟨a, s', hs⟩ := C77_run_not_stuck_partial P dt now hi hwf s h j i hj hnf (.inl ha)
    obtain ⟨_, _, h1⟩ := work_step hs hj
    simp only [isActOf, beq_self_eq_true, if_true] at h1
    omega
  | succ n ih =>
    intro s j i h ha hj hnf hw
    obtain ⟨a, s', hs⟩ := C77_run_not_stuck_partial P dt now hi hwf s h j i hj hnf (.inl ha)
    obtain ⟨i', hj', h1⟩ := work_step hs hj
    simp only [isActOf, beq_self_eq_true, if_true] at h1
    have ha' : s'.dt.alive = true := by
      cases sstep_of hs with
      | act _ hst => exact (istep_alive hst).1.trans ha
    by_cases hend : a = .endScan
    · subst hend
      exact ⟨s, s', .refl, hs, ha'⟩
    · have hnf' : i'.phase ≠ .finished := by
        cases sstep_of hs with
        | @act _ i0 i1 _ dt' acks hj0 hst =>
          rw [hj] at hj0
          cases hj0
          obtain ⟨hlt, _⟩ := List.getElem?_eq_some_iff.1 hj
          simp only [List.getElem?_set_self hlt, Option.some.injEq] at hj'
          subst hj'
          cases hst with
          | endScan => exact absurd rfl hend
          | meet => simp [meetEntry]
          | offer => simp
          | skip => simp
          | send => simp
          | handover => simp
          | _ => exact hnf
      obtain ⟨t, t', g1, g2, g3⟩ := ih s' j i' (.step _ h hs) ha' hj' hnf' (by omega)
      exact ⟨t, t', reach_trans (.step _ .refl hs) g1, g2, g3⟩

theorem exKey_inj {a b : UInt32} (h : exK a = exK b) : a = b := by
  have := encKey_inj h
  simp only [exKey, DatumKey.mk.injEq] at this
  exact this.2.2.1

/-- `n` inserts into a new data set. -/
theorem exFill (n : Nat) (hn : n ≤ 2 ^ 32) : ∃ dt, Reach softP true (exStart 0) (initial dt 1000) ∧ dt.initialized = true ∧
    dt.alive = true ∧ dt.n = 0 ∧ dt.sources = some [] ∧ dt.lastRunTimestamp = 0 ∧ dt.config = some (exCfg 0) ∧ WF0 dt.dbMap ∧
    dt.dbMap.length = n ∧ ∀ p ∈ dt.dbMap, p.2.expireAt = 0 ∧ ∃ q < n, p.1 = exK (UInt32.ofNat q) := by
  induction n with
  | zero =>
    exact ⟨Data.newData (exCfg 0), .refl, rfl, rfl, rfl, rfl, rfl, rfl, ⟨List.nodup_nil, by intro b e he; cases he⟩, rfl,
      by intro p hp; cases hp⟩
  | succ n ih =>
    obtain ⟨dt, hr, h1, h2, h3, h4, h5, h6, h7, h8, h9⟩ := ih (by omega)
    have hnew : dt.dbMap.get? (exK (UInt32.ofNat n)) = none := by
      cases hg : dt.dbMap.get? (exK (UInt32.ofNat n)) with
      | none => rfl
      | some e =>
        obtain ⟨_, q, hq, he⟩ := h9 _ (AMap.mem_of_get? hg)
        have := congrArg UInt32.toNat (exKey_inj he)
        simp only [UInt32.toNat_ofNat'] at this
        omega
    have herase : dt.dbMap.erase (exK (UInt32.ofNat n)) = dt.dbMap := by
      have hno : ∀ p ∈ dt.dbMap, p.1 ≠ exK (UInt32.ofNat n) := by
        intro p hp he
        have := AMap.get?_of_mem h7.nodup (show (p.1, p.2) ∈ dt.dbMap from hp)
        rw [he, hnew] at this
        cases this
      generalize dt.dbMap = m at hno
      induction m with
      | nil => rfl
      | cons p m ihm =>
        obtain ⟨a, b⟩ := p
        have hne := hno (a, b) List.mem_cons_self
        simp only [AMap.erase]
        rw [if_neg (by simpa using hne), ihm fun p hp => hno p (List.mem_cons_of_mem _ hp)]
    have hov : dt.overTarget = false := by
      unfold Data.overTarget
      rw [h6, h3]
      decide
    have hins : ∃ out, Data.insert 1000 [] (fun _ _ _ w => (w, none)) dt () (some (exD (UInt32.ofNat n) 1)) none = .ok out ∧
        out.data = { dt with dbMap := (exK (UInt32.ofNat n), ⟨0, exD (UInt32.ofNat n) 1⟩) :: dt.dbMap,
                             recentInsertCount := dt.recentInsertCount + 1, dirty := true } := by
      unfold Data.insert
      rw [if_neg (by simp [hov]), Data.initData_of_initialized h1]
      have hm : insertBDMap 1000 dt.dbMap (some (exD (UInt32.ofNat n) 1)) none =
          .ok ((exK (UInt32.ofNat n), ⟨0, exD (UInt32.ofNat n) 1⟩) :: dt.dbMap, true) := by
        unfold insertBDMap
        have hk : getKeyAsBytes (exD (UInt32.ofNat n) 1) = some (exK (UInt32.ofNat n)) := getKeyAsBytes_some _ _
        simp only [Res.ofOption_some, Res.bind_eq, Res.bind_ok, hk, encodeToString, hnew, Res.pure_eq, AMap.set, herase]
        rfl
      simp only [hm, Res.bind_ok, h6, Res.ofOption_some]
      rw [if_neg (by simp [exCfg])]
      exact ⟨_, rfl, rfl⟩
    obtain ⟨out, ho, hd⟩ := hins
    refine ⟨out.data, .step (.write (exD (UInt32.ofNat n) 1) none) hr (by simp only [step, initial, ho, if_true]), ?_⟩
    rw [hd]
    refine ⟨h1, h2, h3, h4, h5, h6, ?_, by simp [h8], ?_⟩
    · have := wf0_set h7 (exKey (UInt32.ofNat n)) (some (exVal 1)) 0
      simp only [AMap.set] at this
      rw [show encKey (exKey (UInt32.ofNat n)) = exK (UInt32.ofNat n) from rfl, herase] at this
      exact this
    · intro p hp
      rcases List.mem_cons.1 hp with rfl | hp
      · exact ⟨rfl, n, by omega, rfl⟩
      · obtain ⟨g1, q, g2, g3⟩ := h9 p hp
        exact ⟨g1, q, by omega, g3⟩

/-- ... and the beginning of the first run. -/
theorem exFirstRun (n : Nat) (hn : n ≤ 2 ^ 32) : ∃ dt s1, Reach softP true (exStart 0) (initial dt 1000) ∧ dt.initialized = true ∧
    WF0 dt.dbMap ∧ dt.dbMap.length = n ∧ (∀ p ∈ dt.dbMap, p.2.expireAt = 0) ∧ dt.n = 0 ∧
    step softP false (initial dt 1000) (.run (fun _ => none) []) = some s1 ∧ s1.insts.length = 1 ∧ s1.dt.alive = true := by
  obtain ⟨dt, hr, h1, h2, h3, h4, h5, h6, h7, h8, h9⟩ := exFill n hn
  have hinfo : ∃ info, dt.getDataInfo = .ok info ∧ info.n = 0 := by
    unfold Data.getDataInfo
    rw [h6]
    exact ⟨_, rfl, h3⟩
  obtain ⟨info, hi1, hi2⟩ := hinfo
  have hb : ∃ i, begin softP 1000 false (fun _ => none) [] dt = .ok ({ dt with recentInsertCount := 0 }, some i) := by
    unfold begin
    simp only [hi1, Res.bind_ok, h4, h6, Res.ofOption_some, dataSourceDiffMap, Data.runOnSources, hi2, h5]
    rw [if_pos (by simp [gate]; exact ⟨by decide, .inr (by decide)⟩)]
    exact ⟨_, rfl⟩
  obtain ⟨i, hb⟩ := hb
  refine ⟨dt, ⟨{ dt with recentInsertCount := 0 }, 1000, [i], [], .idle⟩, hr, h1, h7, h8, fun p hp => (h9 p hp).1, h3, ?_, rfl, h2⟩
  simp only [step, initial, h4, Option.getD_some, hb]
  rw [if_pos (by rfl)]
  rfl

end Proc

/-- A new data set, 1001 inserts, one run. -/
theorem C132_index_covers_fails : ¬ C132_index_covers_statement := by
  intro h
  obtain ⟨dt, s1, hr, hi, hwf, hlen, hperm, hn, hb, hl1, ha1⟩ := exFirstRun 1001 (by decide)
  obtain ⟨i, hj, hf, hmap, hins⟩ := begun hb (by rw [hl1]; exact Nat.one_pos)
  have hr1 : Reach softP false (initial dt 1000) s1 := .step _ .refl hb
  obtain ⟨s, s', h1, hs, ha⟩ := can_end hi hwf _ s1 _ i hr1 ha1 hj (by rw [hf.phase]; simp) (Nat.le_refl _)
  have hr' : Reach softP false (initial dt 1000) s' := .step _ (reach_trans hr1 h1) hs
  have hkeep : ∀ k e, dt.dbMap.get? k = some e → s'.dt.dbMap.get? k = some e := fun k e hk =>
    permanent_kept hwf hk (hperm _ (AMap.mem_of_get? hk)) hr'
  have hmany : 1001 ≤ s'.dt.dbMap.length := by
    have := nodup_length_le (m := s'.dt.dbMap.map (·.1)) (show (dt.dbMap.map (·.1)).Nodup from hwf.nodup) (fun k hk => by
      obtain ⟨p, hp, rfl⟩ := List.mem_map.1 hk
      exact List.mem_map.2 ⟨(p.1, p.2), AMap.mem_of_get? (hkeep _ _ (AMap.get?_of_mem hwf.nodup hp)), rfl⟩)
    simpa [hlen] using this
  have h0 : (initial dt 1000).dt.n.toNat = 0 := by
    show dt.n.toNat = 0
    rw [hn]; rfl
  obtain ⟨k, e, hk, hno⟩ := C132_index_misses softP dt 1000 hi hwf (by omega) (initial dt 1000) s1 s s' _ _ .refl hb
    (by rw [hl1]; exact Nat.one_pos) h1 hs ha (by omega) (by omega)
  refine hno Search.exEnv (h softP Search.exEnv (exCfg 0) 1000 dt 1000 s s' _ hr (reach_trans hr1 h1) hs ha k e hk ?_)
  have := (mapInv_reach hwf hr').sub k e hk
  have he : e.expireAt = 0 := hperm _ (AMap.mem_of_get? this)
  simp [isExpired, he]

/-- C132 is not empty: 500 inserts and a run. -/
theorem C132_example : ∃ dt s1 s s', dt.initialized = true ∧ WF0 dt.dbMap ∧ dt.dbMap.length = 500 ∧ Reach softP true (exStart 0) (initial dt 1000) ∧
    step softP false (initial dt 1000) (.run (fun _ => none) []) = some s1 ∧ s1.insts.length = 1 ∧
    Reach softP false s1 s ∧ step softP false s (.act 0 .endScan) = some s' ∧ s'.dt.alive = true ∧ s'.dt.n.toNat ≤ 1000 := by
  obtain ⟨dt, s1, hr, hi, hwf, hlen, hperm, hn, hb, hl1, ha1⟩ := exFirstRun 500 (by decide)
  obtain ⟨i, hj, hf, hmap, hins⟩ := begun hb (by rw [hl1]; exact Nat.one_pos)
  have hr1 : Reach softP false (initial dt 1000) s1 := .step _ .refl hb
  obtain ⟨s, s', h1, hs, ha⟩ := can_end hi hwf _ s1 _ i hr1 ha1 hj (by rw [hf.phase]; simp) (Nat.le_refl _)
  refine ⟨dt, s1, s, s', hi, hwf, hlen, hr, hb, hl1, h1, hs, ha, ?_⟩
  obtain ⟨i', hj', _⟩ := inst_kept h1 hj
  have hr' := reach_trans hr1 h1
  have h2 := (C43_reported_size softP dt 1000 hi hwf (by omega) s s' _ i' hr' hj' hs).1
  have h3 := met_length_le ((mapInv_reach hwf hr').inst i' (List.mem_of_getElem? hj'))
  omega

/-! ### C133 -/

/-- C133, full statement: once a run that began after `s1` has come to its end (and none was under way in `s1`), what index searches
return was stored and alive at some moment after `s1`; in particular nothing that was deleted or had expired before.  FALSE of the
code: a run that finds nothing keeps the index there was. -/
def C133_index_fresh_statement : Prop :=
  ∀ (P : PEnv) (W : Bool) (E : Env) (c : DataConfig) (now : Int64) (s1 : PS), Reach P true (initial (Data.newData c) now) s1 →
    (∀ i ∈ s1.insts, i.phase = .finished) → ∀ (ls : List Label) (s2 : PS), exec P W s1 ls = some s2 →
    ∀ (j : Nat) (i : Inst), s1.insts.length ≤ j → s2.insts[j]? = some i → i.phase = .finished →
    ∀ (vs : List Visit) (answer : List Nat) (q : Datum) (config : Option SearchConfig) (a : Annoyer) (dt' : Data)
      (out : Search.Collector), s2.dt.annoyer = some a → a.dataIndex ≠ [] →
    Search.searchAnnoy E vs answer s2.dt q config = .ok (dt', out) → ∀ sd ∈ out.list, WasLive P W s1 ls sd.datum

namespace Proc

/-- The index is right from run number `b` on. -/
structure FreshInv (b : Nat) (L : Datum → Prop) (s : PS) : Prop where
  len : b ≤ s.insts.length
  old : ∀ j i, s.insts[j]? = some i → j < b → i.phase = .finished
  slots : ∀ j i, s.insts[j]? = some i → b ≤ j → ∀ p ∈ i.slots, L p.2
  index : (∃ j i, s.insts[j]? = some i ∧ b ≤ j ∧ i.phase = .finished ∧ i.slots ≠ []) →
    ∀ a, s.dt.annoyer = some a → ∀ d, some d ∈ a.dataIndex → L d

theorem getElem?_snoc {α : Type} {l : List α} {x y : α} {j : Nat} (h : (l ++ [x])[j]? = some y) :
    l[j]? = some y ∨ (j = l.length ∧ y = x) := by
  by_cases hj : j < l.length
  · rw [List.getElem?_append_left hj] at h; exact .inl h
  · rw [List.getElem?_append_right (by omega)] at h
    have : j - l.length = 0 := by
      cases hn : j - l.length with
      | zero => rfl
      | succ n => rw [hn] at h; simp at h
    rw [this] at h
    simp at h
    exact .inr ⟨by omega, h.symm⟩

theorem freshInv_add {b : Nat} {L : Datum → Prop} {s s' : PS} {x : Inst} (h : FreshInv b L s) (hins : s'.insts = s.insts ++ [x])
    (hann : s'.dt.annoyer = s.dt.annoyer) (h0 : x.slots = []) : FreshInv b L s' := by
  have hl := h.len
  refine ⟨by rw [hins]; simp; omega, ?_, ?_, ?_⟩
  · intro j i hj hb
    rw [hins] at hj
    rcases getElem?_snoc hj with hj | ⟨hj, _⟩
    · exact h.old j i hj hb
    · omega
  · intro j i hj hb p hp
    rw [hins] at hj
    rcases getElem?_snoc hj with hj | ⟨_, rfl⟩
    · exact h.slots j i hj hb p hp
    · rw [h0] at hp; cases hp
  · rintro ⟨j, i, hj, hb, hf, hne⟩
    rw [hins] at hj
    rw [hann]
    rcases getElem?_snoc hj with hj | ⟨_, rfl⟩
    · exact h.index ⟨j, i, hj, hb, hf, hne⟩
    · exact absurd h0 hne

theorem freshInv_same {b : Nat} {L : Datum → Prop} {s s' : PS} (h : FreshInv b L s) (hins : s'.insts = s.insts)
    (hann : s'.dt.annoyer = s.dt.annoyer) : FreshInv b L s' := by
  obtain ⟨h1, h2, h3, h4⟩ := h
  exact ⟨by rw [hins]; exact h1, by rw [hins]; exact h2, by rw [hins]; exact h3, by rw [hins, hann]; exact h4⟩

theorem freshInv_step {P : PEnv} {W : Bool} {s s' : PS} {l : Label} {b : Nat} {L : Datum → Prop} (h : FreshInv b L s)
    (hini : s.dt.initialized = true) (hs : SStep P W s l s')
    (hlive : ∀ k e, s.dt.dbMap.get? k = some e → isExpired e s.now = false → L e.datum) : FreshInv b L s' := by
  have hid : s.dt.initData = s.dt := Data.initData_of_initialized hini
  cases hs with
  | setSources => exact freshInv_same h rfl (by rw [hid])
  | run _ hf => exact freshInv_add h rfl rfl hf.slots
  | closeRun _ _ _ hf => exact freshInv_add h rfl rfl hf.slots
  | @act j i i' a dt' acks hj hist =>
    obtain ⟨hlt, _⟩ := List.getElem?_eq_some_iff.1 hj
    have hget : ∀ {j0 : Nat} {x : Inst}, (s.insts.set j i')[j0]? = some x → (j0 = j ∧ x = i') ∨ (j0 ≠ j ∧ s.insts[j0]? = some x) := by
      intro j0 x hx
      by_cases hjj : j = j0
      · subst hjj
        rw [List.getElem?_set_self hlt] at hx
        exact .inl ⟨rfl, (Option.some.inj hx).symm⟩
      · rw [List.getElem?_set_ne hjj] at hx
        exact .inr ⟨fun h => hjj h.symm, hx⟩
    -- a step of a run that leaves the index alone
    have hgen : dt'.annoyer = s.dt.annoyer → (i.phase = .finished → i'.phase = .finished) →
        (i'.phase = .finished → i.phase = .finished) → (b ≤ j → ∀ p ∈ i'.slots, p ∈ i.slots ∨ L p.2) →
        (i'.phase = .finished → i'.slots = i.slots) → FreshInv b L { s with dt := dt', acks := acks, insts := s.insts.set j i' } := by
      intro ha hp1 hp2 hsl hsl2
      refine ⟨by simpa using h.len, ?_, ?_, ?_⟩
      · intro j0 x hx hb
        rcases hget hx with ⟨rfl, rfl⟩ | ⟨_, hx⟩
        · exact hp1 (h.old _ i hj hb)
        · exact h.old j0 x hx hb
      · intro j0 x hx hb p hp
        rcases hget hx with ⟨rfl, rfl⟩ | ⟨_, hx⟩
        · rcases hsl hb p hp with hp | hp
          · exact h.slots _ i hj hb p hp
          · exact hp
        · exact h.slots j0 x hx hb p hp
      · rintro ⟨j0, x, hx, hb, hf, hne⟩
        simp only [ha]
        rcases hget hx with ⟨rfl, rfl⟩ | ⟨_, hx⟩
        · exact h.index ⟨_, i, hj, hb, hp2 hf, by rw [← hsl2 hf]; exact hne⟩
        · exact h.index ⟨j0, x, hx, hb, hf, hne⟩
    cases hist with
    | @meet k e key hp he hns hx hk =>
      refine hgen rfl (by intro h0; rw [hp] at h0; cases h0) (by intro h0; cases h0) ?_ (by intro h0; cases h0)
      intro _ p hp
      simp only [meetEntry] at hp
      split at hp
      · rcases List.mem_cons.1 hp with rfl | hp
        · exact .inr (hlive k e he hx)
        · exact .inl hp
      · exact .inl hp
    | endScan hp hall =>
      have hbj : b ≤ j := by
        apply Nat.le_of_not_lt
        intro hlt'
        have := h.old j i hj hlt'
        rw [hp] at this
        cases this
      refine ⟨by simpa using h.len, ?_, ?_, ?_⟩
      · intro j0 x hx hb
        rcases hget hx with ⟨rfl, rfl⟩ | ⟨_, hx⟩
        · rfl
        · exact h.old j0 x hx hb
      · intro j0 x hx hb p hp
        rcases hget hx with ⟨rfl, rfl⟩ | ⟨_, hx⟩
        · exact h.slots _ i hj hb p hp
        · exact h.slots j0 x hx hb p hp
      · rintro ⟨j0, x, hx, hb, hf, hne⟩ a ha d hd
        simp only [finish] at ha
        split at ha
        · rename_i hem
          rcases hget hx with ⟨rfl, rfl⟩ | ⟨_, hx⟩
          · exact absurd (List.isEmpty_iff.1 hem) hne
          · exact h.index ⟨j0, x, hx, hb, hf, hne⟩ a ha d hd
        · cases ha
          simp only [dataIndex, List.mem_map] at hd
          obtain ⟨n, _, hn⟩ := hd
          exact h.slots j i hj hbj (n, d) (mem_of_lookup hn)
    | offer hp => exact hgen rfl (by intro h0; rw [hp] at h0; cases h0) (by intro h0; cases h0) (fun _ p hp => .inl hp) (by intro h0; cases h0)
    | skip hp => exact hgen rfl (by intro h0; rw [hp] at h0; cases h0) (by intro h0; cases h0) (fun _ p hp => .inl hp) (by intro h0; cases h0)
    | send hp => exact hgen rfl (by intro h0; rw [hp] at h0; cases h0) (by intro h0; cases h0) (fun _ p hp => .inl hp) (by intro h0; cases h0)
    | handover hp => exact hgen rfl (by intro h0; rw [hp] at h0; cases h0) (by intro h0; cases h0) (fun _ p hp => .inl hp) (by intro h0; cases h0)
    | _ => exact hgen rfl id id (fun _ p hp => .inl hp) (fun _ => rfl)
  | write hW ho =>
    rcases insert_frame ho with hd | ⟨m, r, hd⟩
    · exact freshInv_same h rfl (by simp only [hd])
    · exact freshInv_same h rfl (by simp only [hd, hid])
  | delete hW ho =>
    obtain ⟨m, hd⟩ := delete_frame ho
    exact freshInv_same h rfl (by simp only [hd])
  | _ => exact freshInv_same h rfl rfl

theorem freshInv_mono {b : Nat} {L L' : Datum → Prop} {s : PS} (h : FreshInv b L s) (hL : ∀ d, L d → L' d) : FreshInv b L' s :=
  ⟨h.len, h.old, fun j i hj hb p hp => hL _ (h.slots j i hj hb p hp), fun he a ha d hd => hL _ (h.index he a ha d hd)⟩

theorem freshInv_exec {P : PEnv} {W : Bool} {b : Nat} : ∀ (ls : List Label) {s s' : PS} (L : Datum → Prop), FreshInv b L s →
    s.dt.initialized = true → exec P W s ls = some s' → FreshInv b (fun d => L d ∨ WasLive P W s ls d) s' := by
  intro ls
  induction ls with
  | nil =>
    intro s s' L h _ he
    simp only [exec, Option.some.injEq] at he
    subst he
    exact freshInv_mono h fun _ hd => .inl hd
  | cons l ls ih =>
    intro s s' L h hi he
    simp only [exec] at he
    cases hs : step P W s l with
    | none => rw [hs] at he; cases he
    | some t =>
      rw [hs, Option.bind_some] at he
      have h1 := freshInv_step (freshInv_mono (L' := fun d => L d ∨ WasLive P W s [] d) h fun _ hd => .inl hd) hi (sstep_of hs)
        (fun k e hk hx => .inr ⟨[], [], s, k, e, rfl, rfl, hk, rfl, hx⟩)
      refine freshInv_mono (ih _ h1 (sstep_alive (sstep_of hs) hi).1 he) ?_
      rintro d ((hd | ⟨l1, l2, u, k, e, hnil, h5, h6⟩) | hd)
      · exact .inl hd
      · obtain ⟨rfl, rfl⟩ := List.append_eq_nil_iff.1 hnil.symm
        exact .inr ⟨[], l :: ls, u, k, e, rfl, h5, h6⟩
      · exact .inr (wasLive_cons hs hd)

/-- In an open data set the first datum a run meets gets the first place of the slice. -/
theorem met_slots {P : PEnv} {W : Bool} {dt : Data} {now : Int64} (hi : dt.initialized = true) {s : PS}
    (h : Reach P W (initial dt now) s) (ha : s.dt.alive = true) : ∀ i ∈ s.insts, 1000 ≤ i.size ∧ (i.met ≠ [] → i.slots ≠ []) := by
  revert ha
  refine reach_inv (fun s => s.dt.alive = true → ∀ i ∈ s.insts, 1000 ≤ i.size ∧ (i.met ≠ [] → i.slots ≠ [])) (by simp [initial]) ?_ h
  intro s s' l hr ih hs ha
  have ha0 := (sstep_alive hs (basic_reach hi hr).1).2.1 ha
  have ih := ih ha0
  have hfresh : ∀ i : Inst, 1000 ≤ i.size → i.met = [] → ∀ x ∈ s.insts ++ [i], 1000 ≤ x.size ∧ (x.met ≠ [] → x.slots ≠ []) := by
    intro i h0 h1 x hx
    rcases List.mem_append.1 hx with hx | hx
    · exact ih x hx
    · rw [List.mem_singleton.1 hx]; exact ⟨h0, fun h => absurd h1 h⟩
  cases hs with
  | run _ hf => exact hfresh _ hf.size.1 hf.met
  | closeRun _ _ _ hf => exact hfresh _ hf.size.1 hf.met
  | @act j i i' a dt' acks hj hst =>
    have hm := ih i (List.mem_of_getElem? hj)
    intro x hx
    rcases mem_set_list hx with rfl | hx
    · cases hst with
      | @meet k e key =>
        refine ⟨hm.1, fun _ => ?_⟩
        simp only [meetEntry]
        split
        · simp
        · rename_i hc
          apply hm.2
          intro h0
          apply hc
          have hn := ((basic_reach hi hr).2.2 i (List.mem_of_getElem? hj)).n
          rw [h0] at hn
          have hz : i.stats.n.toNat = 0 := by rw [hn]; rfl
          have := hm.1
          simp only [ha0, Bool.true_and, decide_eq_true_eq]
          omega
      | _ => exact hm
    · exact ih x hx
  | _ => exact ih

/-- Nothing is inserted into an empty data set: the index stays. -/
theorem empty_keeps {P : PEnv} {s s' : PS} (h : Reach P false s s') (hi : s.dt.initialized = true) (hm : s.dt.dbMap = [])
    (hins : ∀ i ∈ s.insts, i.phase = .finished ∨ i.slots = []) : s'.dt.dbMap = [] ∧ s'.dt.annoyer = s.dt.annoyer := by
  have := reach_inv (P := P) (W := false) (s0 := s) (fun t => t.dt.initialized = true ∧ t.dt.dbMap = [] ∧
    t.dt.annoyer = s.dt.annoyer ∧ ∀ i ∈ t.insts, i.phase = .finished ∨ i.slots = []) ⟨hi, hm, rfl, hins⟩ ?_ h
  · exact ⟨this.2.1, this.2.2.1⟩
  rintro t t' l _ ⟨h1, h2, h3, h4⟩ hs
  have h1' := (sstep_alive hs h1).1
  have hid : t.dt.initData = t.dt := Data.initData_of_initialized h1
  have hfresh : ∀ i : Inst, i.slots = [] → ∀ x ∈ t.insts ++ [i], x.phase = .finished ∨ x.slots = [] := by
    intro i h0 x hx
    rcases List.mem_append.1 hx with hx | hx
    · exact h4 x hx
    · rw [List.mem_singleton.1 hx]; exact .inr h0
  cases hs with
  | setSources => exact ⟨h1', by rw [hid]; exact h2, by rw [hid]; exact h3, h4⟩
  | run _ hf => exact ⟨h1', h2, h3, hfresh _ hf.slots⟩
  | closeRun _ _ _ hf => exact ⟨h1', h2, h3, hfresh _ hf.slots⟩
  | @act j i i' a dt' acks hj hst =>
    have hii := h4 i (List.mem_of_getElem? hj)
    have hset : (i'.phase = .finished ∨ i'.slots = []) → ∀ x ∈ t.insts.set j i', x.phase = .finished ∨ x.slots = [] := by
      intro hh x hx
      rcases mem_set_list hx with rfl | hx
      · exact hh
      · exact h4 x hx
    have hsc : i.phase ≠ .finished → i.slots = [] := fun h => hii.resolve_left h
    cases hst with
    | purge _ he => rw [h2] at he; cases he
    | meet _ he => rw [h2] at he; cases he
    | endScan hp hall =>
      have h0 := hsc (by rw [hp]; simp)
      refine ⟨h1', h2, ?_, hset (.inl rfl)⟩
      simp only [finish, h0, List.isEmpty_nil, if_true]
      exact h3
    | offer hp => exact ⟨h1', h2, h3, hset (.inr (hsc (by rw [hp]; simp)))⟩
    | skip hp => exact ⟨h1', h2, h3, hset (.inr (hsc (by rw [hp]; simp)))⟩
    | send hp => exact ⟨h1', h2, h3, hset (.inr (hsc (by rw [hp]; simp)))⟩
    | handover hp => exact ⟨h1', h2, h3, hset (.inr (hsc (by rw [hp]; simp)))⟩
    | evict => exact ⟨h1', by simp only [h2]; rfl, h3, hset hii⟩
    | _ => exact ⟨h1', h2, h3, hset hii⟩
  | write hW _ => cases hW
  | delete hW _ => cases hW
  | _ => exact ⟨h1', h2, h3, h4⟩

/-- What is possible when nobody writes is possible when clients may write. -/
theorem step_writes {P : PEnv} {W : Bool} {s s' : PS} {l : Label} (h : step P W s l = some s') : step P true s l = some s' := by
  cases W with
  | true => exact h
  | false =>
    cases l with
    | act j a =>
      simp only [step] at h ⊢
      cases hj : s.insts[j]? with
      | none => rw [hj] at h; cases h
      | some i =>
        rw [hj] at h
        simp only at h ⊢
        cases hi : instStep P false s.now s.dt s.acks i a with
        | none => rw [hi] at h; cases h
        | some r =>
          have : instStep P true s.now s.dt s.acks i a = some r := by
            cases a with
            | endScan =>
              simp only [instStep] at hi ⊢
              split at hi
              · rw [if_pos (.inl trivial)]
                split at hi
                · exact hi
                · cases hi
              · cases hi
            | _ => exact hi
          rw [this]
          rw [hi] at h
          exact h
    | write d config => simp [step] at h
    | delete d => simp [step] at h
    | _ => exact h

theorem exec_writes {P : PEnv} {W : Bool} : ∀ (ls : List Label) {s s' : PS}, exec P W s ls = some s' → exec P true s ls = some s' := by
  intro ls
  induction ls with
  | nil => intro s s' h; exact h
  | cons l ls ih =>
    intro s s' h
    simp only [exec] at h ⊢
    cases hs : step P W s l with
    | none => rw [hs] at h; cases h
    | some t =>
      rw [hs, Option.bind_some] at h
      rw [step_writes hs, Option.bind_some]
      exact ih h

theorem reach_init {P : PEnv} {W : Bool} {dt : Data} {now : Int64} (hi : dt.initialized = true) {s : PS}
    (h : Reach P W (initial dt now) s) : s.dt.initialized = true := (basic_reach hi h).1

end Proc

/-- C133, what holds, whatever clients do meanwhile: if the run met a live datum and the data set has not been closed, index searches
return nothing that was not stored and alive after `s1`.  Missing: runs that meet nothing (`C133_index_fresh_fails`), and data sets
being closed. -/
theorem C133_index_fresh_partial (P : PEnv) (W : Bool) (E : Env) (c : DataConfig) (now : Int64) (s1 : PS)
    (h1 : Reach P true (initial (Data.newData c) now) s1) (hidle : ∀ i ∈ s1.insts, i.phase = .finished) (ls : List Label) (s2 : PS)
    (he : exec P W s1 ls = some s2) (j : Nat) (i : Inst) (hj : s1.insts.length ≤ j) (hi : s2.insts[j]? = some i)
    (hf : i.phase = .finished) (hmet : i.met ≠ []) (halive : s2.dt.alive = true) (vs : List Visit) (answer : List Nat) (q : Datum)
    (config : Option SearchConfig) (a : Annoyer) (dt' : Data) (out : Search.Collector) (ha : s2.dt.annoyer = some a)
    (hne : a.dataIndex ≠ []) (hs : Search.searchAnnoy E vs answer s2.dt q config = .ok (dt', out)) :
    ∀ sd ∈ out.list, WasLive P W s1 ls sd.datum := by
  have hini := reach_init (P := P) (W := true) (dt := Data.newData c) rfl h1
  have h0 : FreshInv s1.insts.length (fun _ => False) s1 := by
    refine ⟨Nat.le_refl _, fun j i hj _ => hidle i (List.mem_of_getElem? hj), ?_, ?_⟩
    · intro j i hj hb
      obtain ⟨hlt, _⟩ := List.getElem?_eq_some_iff.1 hj
      omega
    · rintro ⟨j, i, hj, hb, _⟩
      obtain ⟨hlt, _⟩ := List.getElem?_eq_some_iff.1 hj
      omega
  have h2 := freshInv_exec ls _ h0 hini he
  have hr2 : Reach P true (initial (Data.newData c) now) s2 := reach_exec ls h1 (exec_writes ls he)
  have hsl := (met_slots (P := P) (W := true) (dt := Data.newData c) rfl hr2 halive i (List.mem_of_getElem? hi)).2 hmet
  intro sd hsd
  exact (h2.index ⟨j, i, hi, hj, hf, hsl⟩ a ha _ (searchAnnoy_mem ha hne hs sd hsd).1).resolve_left id

/-- C133: when everything has been deleted or has expired, the index and the answers from it stay as they are for ever, as long as
nothing is inserted, whatever maintenance does. -/
theorem C133_index_stale (P : PEnv) (E : Env) (c : DataConfig) (now : Int64) (s1 s2 : PS)
    (h1 : Reach P true (initial (Data.newData c) now) s1) (hidle : ∀ i ∈ s1.insts, i.phase = .finished) (hempty : s1.dt.dbMap = [])
    (h2 : Reach P false s1 s2) (a : Annoyer) (ha : s1.dt.annoyer = some a) (hne : a.dataIndex ≠ []) (vs : List Visit)
    (answer : List Nat) (q : Datum) (config : Option SearchConfig) :
    s2.dt.dbMap = [] ∧ (Search.searchAnnoy E vs answer s2.dt q config).bind (fun r => .ok r.2) =
      (Search.searchAnnoy E vs answer s1.dt q config).bind (fun r => .ok r.2) := by
  have hini := reach_init (P := P) (W := true) (dt := Data.newData c) rfl h1
  obtain ⟨h3, h4⟩ := empty_keeps h2 hini hempty fun i hi => .inl (hidle i hi)
  refine ⟨h3, ?_⟩
  have hb : a.dataIndex.isEmpty = false := by simpa using hne
  unfold Search.searchAnnoy
  rw [h4, ha]
  simp only [hb, Bool.false_eq_true, if_false]
  cases q.key with
  | none => rfl
  | some k =>
    simp only [Res.ofOption_some, Res.bind_ok]
    cases Search.annoyLoop E q a.dataIndex (Search.newCollector (config.getD Search.defaultSearchConfig)) 0 answer <;> rfl

namespace Proc

/-- Insert, run, delete; then another run, a thousand seconds later. -/
def exStale : List Label := [.tick 2000, .run (fun _ => none) [], .act 1 .endScan]

end Proc

set_option synthInstance.maxSize 1000 in
theorem C133_index_fresh_fails : ¬ C133_index_fresh_statement := by
  intro h
  have ht : ((exec softP true (exStart 0) (exFirst [] 0 ++ [.delete (exD 1 1)])).bind fun s1 =>
      (exec softP false s1 exStale).map fun s2 => (s1.insts.map (·.phase), s1.dt.dbMap, s2.insts.map (·.phase),
        s2.dt.annoyer.map (·.dataIndex.isEmpty), hitsOf (Search.searchAnnoy Search.exEnv [] [0] s2.dt (exD 1 1) none))) =
      some ([.finished], [], [.finished, .finished], some false, some [exD 1 1]) := by decide +kernel
  cases h1 : exec softP true (exStart 0) (exFirst [] 0 ++ [.delete (exD 1 1)]) with
  | none => rw [h1] at ht; cases ht
  | some s1 =>
    rw [h1, Option.bind_some] at ht
    cases h2 : exec softP false s1 exStale with
    | none => rw [h2] at ht; cases ht
    | some s2 =>
      rw [h2] at ht
      simp only [Option.map_some, Option.some.injEq, Prod.mk.injEq] at ht
      obtain ⟨e1, e2, e3, e4, e5⟩ := ht
      have hr1 : Reach softP true (exStart 0) s1 := reach_exec _ .refl h1
      have hidle : ∀ i ∈ s1.insts, i.phase = .finished := by
        intro i hi
        have := List.mem_map_of_mem (f := (·.phase)) hi
        rw [e1] at this
        exact List.mem_singleton.1 this
      have hl1 : s1.insts.length = 1 := by simpa using congrArg List.length e1
      have hl2 : s2.insts.length = 2 := by simpa using congrArg List.length e3
      cases hi : s2.insts[1]? with
      | none => rw [List.getElem?_eq_none_iff] at hi; omega
      | some i =>
        have hif : i.phase = .finished := by
          have := congrArg (fun l => l[1]?) e3
          simp only [List.getElem?_map, hi] at this
          exact Option.some.inj this
        cases ha : s2.dt.annoyer with
        | none => rw [ha] at e4; cases e4
        | some a =>
          rw [ha] at e4
          simp only [Option.map_some, Option.some.injEq] at e4
          cases hs : Search.searchAnnoy Search.exEnv [] [0] s2.dt (exD 1 1) none with
          | panic => rw [hs] at e5; cases e5
          | err e => rw [hs] at e5; cases e5
          | ok p =>
            rw [hs] at e5
            simp only [hitsOf, Option.some.injEq] at e5
            have hne : p.2.list ≠ [] := by intro h0; rw [h0] at e5; cases e5
            obtain ⟨sd, l, hl⟩ := List.exists_cons_of_ne_nil hne
            obtain ⟨l1, l2, t, k, e, _, g1, g2, _⟩ := h softP false Search.exEnv _ _ s1 hr1 hidle exStale s2 h2 1 i (by omega) hi hif
              [] [0] (exD 1 1) none a p.1 p.2 ha (by intro h0; rw [h0] at e4; cases e4) hs sd (by rw [hl]; exact List.mem_cons_self)
            have hini := reach_init (P := softP) (W := true) (dt := Data.newData (exCfg 0)) rfl hr1
            have := (empty_keeps (reach_exec l1 .refl g1) hini e2 fun i hi => .inl (hidle i hi)).1
            rw [this] at g2
            cases g2

set_option synthInstance.maxSize 1000 in
/-- C133 is not empty: after another insert the second run builds an index from which the deleted datum is gone. -/
theorem C133_example : (exec softP true (exStart 0) (exFirst [] 0 ++ [.delete (exD 1 1), .write (exD 2 2) none, .tick 2000,
      .run (fun _ => none) [], .act 1 (.meet (exK 2)), .act 1 (.offer 0), .act 1 .endScan])).map (fun s =>
      (s.insts.map (·.phase), s.dt.alive, s.insts.map (·.met.length),
        hitsOf (Search.searchAnnoy Search.exEnv [] [0] s.dt (exD 1 1) none))) =
    some ([.finished, .finished], true, [1, 1], some [exD 2 2]) := by decide +kernel

end Veri
