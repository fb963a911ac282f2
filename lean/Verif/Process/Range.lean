import Verif.Process.Limits
/-
Maintenance while clients write: what `Range` of a sync.Map promises then, and what follows for the reported size (C43)
and the target (C16).

The documentation of sync.Map: `Range` visits no key more than once; a key that is stored or deleted during the `Range`
may be visited or not, with any of its mappings; the keys that are there all the time are visited.  The machine of
Process/Model.lean with `W = true` lets a scan end at any time.  Here the promise is added: a scan ends only when it has
come to all keys that have been in the store since it began.
-/
set_option autoImplicit false
namespace Veri
namespace Proc
open Gencoder
open Store hiding Label

/-- What is remembered of a run: the keys that have been in the store all the time since it began, the keys in the store
when it began, and the keys of the inserts accepted since. -/
structure Watch where
  owed : List Bytes
  first : List Bytes
  wrote : List Bytes
  deriving DecidableEq, Repr

/-- The data set with these records, one per run. -/
structure RS where
  ps : PS
  watch : List Watch
  /-- the number of inserts accepted since the beginning of the run that came to its end last -/
  since : Nat
  /-- the keys of all inserts accepted so far -/
  total : List Bytes
  deriving DecidableEq, Repr

/-- The key of the insert a step accepts. -/
def accepted (s : PS) : Label → List Bytes
  | .write datum config =>
    match Data.insert s.now [] (fun _ _ _ w => (w, none)) s.dt () (some datum) config with
    | .ok out => if out.err = some .overTarget then [] else [(getKeyAsBytes datum).getD []]
    | _ => []
  | _ => []

/-- The record of a run after a step that leaves the keys `ks` in the store and accepts an insert with key in `a`. -/
def Watch.next (ks a : List Bytes) (w : Watch) : Watch :=
  { w with owed := w.owed.filter (fun k => ks.contains k), wrote := a ++ w.wrote }

/-- The records after a step of the data set to `s'`. -/
def advance (r : RS) (l : Label) (s' : PS) : RS :=
  let ks := s'.dt.dbMap.keys
  let a := accepted r.ps l
  { ps := s'
    watch := r.watch.map (Watch.next ks a) ++ if r.ps.insts.length < s'.insts.length then [⟨ks, ks, []⟩] else []
    since := match l with
      | .act j .endScan => ((r.watch[j]?).map (fun w => w.wrote.length)).getD 0
      | _ => a.length + r.since
    total := a ++ r.total }

/-- `Range` may be over: it has come to all keys that were there all the time. -/
def complete (r : RS) : Label → Bool
  | .act j .endScan =>
    match r.watch[j]?, r.ps.insts[j]? with
    | some w, some i => w.owed.all fun k => i.seen.contains k
    | _, _ => false
  | _ => true

/-- One step with the promise of `Range`. -/
def rstep (P : PEnv) (r : RS) (l : Label) : Option RS :=
  if complete r l then (step P true r.ps l).map (advance r l) else none

def rinitial (dt : Data) (now : Int64) : RS := ⟨initial dt now, [], 0, []⟩

def rexec (P : PEnv) (r : RS) : List Label → Option RS
  | [] => some r
  | l :: ls => (rstep P r l).bind fun r => rexec P r ls

/-- Reachable states. -/
inductive RReach (P : PEnv) (r0 : RS) : RS → Prop
  | refl : RReach P r0 r0
  | step {r r' : RS} (l : Label) : RReach P r0 r → rstep P r l = some r' → RReach P r0 r'

theorem rreach_exec {P : PEnv} {r0 : RS} : ∀ (ls : List Label) {r r' : RS}, RReach P r0 r → rexec P r ls = some r' →
    RReach P r0 r' := by
  intro ls
  induction ls with
  | nil => intro r r' h he; simp only [rexec, Option.some.injEq] at he; exact he ▸ h
  | cons l ls ih =>
    intro r r' h he
    simp only [rexec] at he
    cases hs : rstep P r l with
    | none => simp [hs] at he
    | some t => rw [hs] at he; exact ih (.step l h hs) he

theorem rexec_reach {β : Type} {P : PEnv} {r0 : RS} {ls : List Label} {f : RS → β} {b : β}
    (h : (rexec P r0 ls).map f = some b) : ∃ r, RReach P r0 r ∧ f r = b := by
  cases he : rexec P r0 ls with
  | none => rw [he] at h; cases h
  | some s => rw [he] at h; cases h; exact ⟨s, rreach_exec ls .refl he, rfl⟩

theorem rstep_inv {P : PEnv} {r r' : RS} {l : Label} (h : rstep P r l = some r') :
    complete r l = true ∧ ∃ s', step P true r.ps l = some s' ∧ r' = advance r l s' := by
  unfold rstep at h
  split at h
  · rename_i hc
    cases hs : step P true r.ps l with
    | none => rw [hs] at h; cases h
    | some s' => rw [hs] at h; cases h; exact ⟨hc, s', rfl, rfl⟩
  · cases h

/-- These are executions of the machine of Process/Model.lean. -/
theorem rreach_reach {P : PEnv} {dt : Data} {now : Int64} {r : RS} (h : RReach P (rinitial dt now) r) :
    Reach P true (initial dt now) r.ps := by
  induction h with
  | refl => exact .refl
  | step l _ hs ih =>
    obtain ⟨_, s', h1, rfl⟩ := rstep_inv hs
    exact .step l ih h1

/-! ### How a step changes the store -/

/-- The store stays, loses a key, or gets the key of an accepted insert. -/
inductive Change (a : List Bytes) (m : DBMap) : DBMap → Prop
  | same : Change a m m
  | erase (k : Bytes) : Change a m (m.erase k)
  | set (k : DatumKey) (v : Option DatumValue) (x : Int64) : a = [encKey k] → Change a m (m.set (encKey k) ⟨x, ⟨some k, v⟩⟩)

theorem istep_change {P : PEnv} {now : Int64} {dt dt' : Data} {acks acks' : List Ack} {i i' : Inst} {x : Act}
    (h : IStep P true now dt acks i x dt' acks' i') (a : List Bytes) : Change a dt.dbMap dt'.dbMap := by
  cases h with
  | purge => exact .erase _
  | evict => exact .erase _
  | _ => exact .same

theorem step_change {P : PEnv} {s s' : PS} {l : Label} (h : step P true s l = some s') (hi : s.dt.initialized = true) :
    Change (accepted s l) s.dt.dbMap s'.dt.dbMap := by
  have hid := Data.initData_of_initialized hi
  have hs := sstep_of h
  clear h
  cases hs with
  | setSources => rw [hid]; exact .same
  | act _ hst => exact istep_change hst _
  | @delete datum dt _ hd =>
    unfold Data.delete deleteBDMap at hd
    cases hk : getKeyAsBytes datum with
    | none => simp [Res.bind_eq, hk] at hd
    | some kb =>
      simp only [Res.ofOption_some, Res.bind_eq, Res.bind_ok, hk, Res.pure_eq, Res.ok.injEq] at hd
      subst hd
      exact .erase _
  | @write datum config out _ ho =>
    have hacc : accepted s (.write datum config) =
        if out.err = some .overTarget then [] else [(getKeyAsBytes datum).getD []] := by
      simp only [accepted, ho]
    rcases Data.insert_cases _ _ _ _ _ _ _ _ ho with ⟨_, rfl⟩ | ⟨_, d, dc, m, b, hd, _, hm, hod, _⟩
    · exact .same
    · cases hd
      rcases insert_data_cases ho hi with ⟨_, hdd, _⟩ | ⟨_, he, _⟩
      · rw [hdd]; exact .same
      · rw [hacc, if_neg he]
        simp only [hod]
        rcases insertBDMap_shape hm with ⟨rfl, _⟩ | ⟨k, hk, rfl, _⟩
        · exact .same
        · obtain ⟨dk, dv⟩ := datum
          simp only at hk
          subst hk
          exact .set k dv _ (by rw [getKeyAsBytes_some]; rfl)
  | _ => exact .same

theorem change_wf0 {a : List Bytes} {m m' : DBMap} (h : Change a m m') (hw : WF0 m) : WF0 m' := by
  cases h with
  | same => exact hw
  | erase k => exact wf0_erase hw k
  | set k v x => exact wf0_set hw k v x

theorem change_keys {a : List Bytes} {m m' : DBMap} (h : Change a m m') {k : Bytes} (hk : k ∈ m'.keys) :
    k ∈ m.keys ∨ k ∈ a := by
  cases h with
  | same => exact .inl hk
  | erase k' =>
    rw [AMap.keys_erase] at hk
    exact .inl (List.mem_filter.1 hk).1
  | set k' v x ha =>
    simp only [AMap.set, AMap.keys, List.map_cons, List.mem_cons] at hk
    rcases hk with rfl | hk
    · rw [ha]; exact .inr (List.mem_singleton.2 rfl)
    · have : k ∈ (m.erase (encKey k')).keys := hk
      rw [AMap.keys_erase] at this
      exact .inl (List.mem_filter.1 this).1

theorem change_length {a : List Bytes} {m m' : DBMap} (h : Change a m m') : m'.length ≤ m.length + a.length := by
  cases h with
  | same => omega
  | erase k => have := erase_length_le m k; omega
  | set k v x ha =>
    have := length_set_le m (encKey k) (⟨x, ⟨some k, v⟩⟩ : Entry)
    rw [ha]
    simp only [List.length_singleton]
    exact this

theorem filter_ne_length {l : List Bytes} (h : l.Nodup) (k : Bytes) :
    l.length ≤ (l.filter (fun x => decide (x ≠ k))).length + 1 := by
  induction l with
  | nil => simp
  | cons x l ih =>
    obtain ⟨hx, hn⟩ := List.nodup_cons.1 h
    have := ih hn
    by_cases hxk : x = k
    · subst hxk
      have he : l.filter (fun y => decide (y ≠ x)) = l := by
        apply List.filter_eq_self.2
        intro y hy
        simp only [ne_eq, decide_eq_true_eq]
        intro h; exact hx (h ▸ hy)
      rw [List.filter_cons_of_neg (by simp), he, List.length_cons]
      omega
    · rw [List.filter_cons_of_pos (by simpa using hxk), List.length_cons, List.length_cons]
      omega

/-! ### The invariant of a record -/

structure WatchInv (m : DBMap) (i : Inst) (w : Watch) : Prop where
  nodup : w.owed.Nodup
  sub : ∀ k ∈ w.owed, k ∈ m.keys
  size : m.length ≤ w.owed.length + w.wrote.length
  keys : ∀ k ∈ m.keys, k ∈ w.first ++ w.wrote
  seenNodup : i.seen.Nodup
  seen : ∀ k ∈ i.seen, k ∈ w.first ++ w.wrote
  met : i.met.length ≤ i.seen.length
  owedMet : (w.owed.filter fun k => i.seen.contains k).length ≤ i.met.length

theorem watchInv_change {a : List Bytes} {m m' : DBMap} {i : Inst} {w : Watch} (h : WatchInv m i w) (hc : Change a m m')
    (hw : WF0 m) : WatchInv m' i (w.next m'.keys a) := by
  have hw' := change_wf0 hc hw
  refine ⟨h.nodup.filter _, ?_, ?_, ?_, h.seenNodup, ?_, h.met, ?_⟩
  · intro k hk
    have := (List.mem_filter.1 hk).2
    simpa using this
  · simp only [Watch.next, List.length_append]
    have hs := h.size
    cases hc with
    | same =>
      have : w.owed.filter (fun k => m.keys.contains k) = w.owed :=
        List.filter_eq_self.2 fun k hk => by simpa using h.sub k hk
      rw [this]; omega
    | erase k =>
      have hf : w.owed.filter (fun x => (m.erase k).keys.contains x) = w.owed.filter (fun x => decide (x ≠ k)) := by
        apply List.filter_congr
        intro x hx
        rw [AMap.keys_erase, Bool.eq_iff_iff]
        simp only [List.contains_iff_mem, List.mem_filter, decide_eq_true_eq]
        exact ⟨fun h => h.2, fun hn => ⟨h.sub x hx, hn⟩⟩
      rw [hf]
      by_cases hk : k ∈ m.keys
      · have h1 := AMap.length_erase hw.nodup hk
        have h2 := filter_ne_length h.nodup k
        have h3 : m.length ≠ 0 := by
          intro h0
          rw [List.eq_nil_of_length_eq_zero h0] at hk
          cases hk
        omega
      · have h1 := AMap.erase_of_not_mem hk
        have h2 : w.owed.filter (fun x => decide (x ≠ k)) = w.owed :=
          List.filter_eq_self.2 fun x hx => by
            simp only [ne_eq, decide_eq_true_eq]
            intro he; exact hk (he ▸ h.sub x hx)
        rw [h1, h2]; omega
    | set k v x ha =>
      have hf : w.owed.filter (fun y => (m.set (encKey k) ⟨x, ⟨some k, v⟩⟩).keys.contains y) = w.owed := by
        apply List.filter_eq_self.2
        intro y hy
        simp only [List.contains_iff_mem]
        by_cases hyk : y = encKey k
        · rw [hyk]; exact List.mem_cons_self
        · refine List.mem_cons_of_mem _ ?_
          show y ∈ (m.erase (encKey k)).keys
          rw [AMap.keys_erase]
          exact List.mem_filter.2 ⟨h.sub y hy, by simpa using hyk⟩
      have := length_set_le m (encKey k) (⟨x, ⟨some k, v⟩⟩ : Entry)
      rw [hf, ha]
      simp only [List.length_singleton]
      omega
  · intro k hk
    rcases change_keys hc hk with hk | hk
    · rcases List.mem_append.1 (h.keys k hk) with hk | hk
      · exact List.mem_append_left _ hk
      · exact List.mem_append_right _ (List.mem_append_right _ hk)
    · exact List.mem_append_right _ (List.mem_append_left _ hk)
  · intro k hk
    rcases List.mem_append.1 (h.seen k hk) with hk | hk
    · exact List.mem_append_left _ hk
    · exact List.mem_append_right _ (List.mem_append_right _ hk)
  · refine Nat.le_trans ?_ h.owedMet
    exact ((List.filter_sublist).filter _).length_le

theorem watchInv_congr {m : DBMap} {i i' : Inst} {w : Watch} (h : WatchInv m i w) (h1 : i'.seen = i.seen) (h2 : i'.met = i.met) :
    WatchInv m i' w := by
  refine ⟨h.nodup, h.sub, h.size, h.keys, ?_, ?_, ?_, ?_⟩
  · rw [h1]; exact h.seenNodup
  · rw [h1]; exact h.seen
  · rw [h1, h2]; exact h.met
  · rw [h1, h2]; exact h.owedMet

theorem filter_cons_length {l : List Bytes} (h : l.Nodup) (k : Bytes) (seen : List Bytes) :
    (l.filter fun x => (k :: seen).contains x).length ≤ (l.filter fun x => seen.contains x).length + 1 := by
  induction l with
  | nil => simp
  | cons y l ih =>
    obtain ⟨hy, hn⟩ := List.nodup_cons.1 h
    have := ih hn
    by_cases hyk : y = k
    · subst hyk
      have he : (l.filter fun x => (y :: seen).contains x) = l.filter fun x => seen.contains x := by
        apply List.filter_congr
        intro x hx
        have hne : x ≠ y := fun h => hy (h ▸ hx)
        rw [List.contains_cons]
        simp [hne]
      rw [List.filter_cons_of_pos (by simp), List.length_cons, he]
      by_cases hys : seen.contains y
      · rw [List.filter_cons_of_pos (by simpa using hys), List.length_cons]; omega
      · rw [List.filter_cons_of_neg (by simpa using hys)]; omega
    · by_cases hys : seen.contains y
      · rw [List.filter_cons_of_pos (by simp [hyk]; exact List.contains_iff_mem.1 hys), List.filter_cons_of_pos (by simpa using hys), List.length_cons,
          List.length_cons]
        omega
      · rw [List.filter_cons_of_neg (by simp [hyk]; intro h; exact hys (List.contains_iff_mem.2 h)), List.filter_cons_of_neg (by simpa using hys)]
        omega

/-- A step of the run itself. -/
theorem watchInv_act {P : PEnv} {now : Int64} {dt dt' : Data} {acks acks' : List Ack} {i i' : Inst} {x : Act} {w : Watch}
    (hst : IStep P true now dt acks i x dt' acks' i') (h : WatchInv dt.dbMap i w) (hw : WF0 dt.dbMap) (a : List Bytes) :
    WatchInv dt'.dbMap i' (w.next dt'.dbMap.keys a) := by
  have hc := watchInv_change h (istep_change hst a) hw
  cases hst with
  | @purge k e hp hk hs hx =>
    have hkm : k ∈ dt.dbMap.keys := List.mem_map_of_mem (f := (·.1)) (AMap.mem_of_get? hk)
    have hno : k ∉ (w.next (dt.dbMap.erase k).keys a).owed := by
      intro hko
      have := hc.sub k hko
      rw [AMap.keys_erase] at this
      simpa using (List.mem_filter.1 this).2
    refine ⟨hc.nodup, hc.sub, hc.size, hc.keys, List.nodup_cons.2 ⟨hs, h.seenNodup⟩, ?_, ?_, ?_⟩
    · intro k' hk'
      rcases List.mem_cons.1 hk' with rfl | hk'
      · rcases List.mem_append.1 (h.keys _ hkm) with hk | hk
        · exact List.mem_append_left _ hk
        · exact List.mem_append_right _ (List.mem_append_right _ hk)
      · exact hc.seen k' hk'
    · simp only [List.length_cons]; have := h.met; omega
    · refine Nat.le_trans (Nat.le_of_eq ?_) hc.owedMet
      congr 1
      apply List.filter_congr
      intro y hy
      have hne : y ≠ k := fun he => hno (he ▸ hy)
      rw [List.contains_cons]
      simp [hne]
  | @meet k e key hp hk hs hx hkey =>
    have hkm : k ∈ dt.dbMap.keys := List.mem_map_of_mem (f := (·.1)) (AMap.mem_of_get? hk)
    refine ⟨hc.nodup, hc.sub, hc.size, hc.keys, List.nodup_cons.2 ⟨hs, h.seenNodup⟩, ?_, ?_, ?_⟩
    · intro k' hk'
      rcases List.mem_cons.1 hk' with rfl | hk'
      · rcases List.mem_append.1 (h.keys _ hkm) with hk | hk
        · exact List.mem_append_left _ hk
        · exact List.mem_append_right _ (List.mem_append_right _ hk)
      · exact hc.seen k' hk'
    · simp only [meetEntry, List.length_cons, List.length_append, List.length_nil]; have := h.met; omega
    · simp only [meetEntry, List.length_append, List.length_singleton]
      exact Nat.le_trans (filter_cons_length hc.nodup k i.seen) (Nat.add_le_add_right hc.owedMet 1)
  | _ => exact watchInv_congr hc rfl rfl

theorem watchInv_fresh {m : DBMap} {i : Inst} (hw : WF0 m) (h1 : i.seen = []) (h2 : i.met = []) :
    WatchInv m i ⟨m.keys, m.keys, []⟩ := by
  refine ⟨hw.nodup, fun _ h => h, ?_, ?_, ?_, ?_, ?_, ?_⟩
  · simp [AMap.keys]
  · intro k hk; exact List.mem_append_left _ hk
  · rw [h1]; exact List.nodup_nil
  · rw [h1]; intro k hk; cases hk
  · rw [h1, h2]; exact Nat.le_refl _
  · rw [h1, List.filter_eq_nil_iff.2 (by intro a _; simp)]; exact Nat.zero_le _

/-! ### The invariant of all records -/

structure RInv (r : RS) : Prop where
  init : r.ps.dt.initialized = true
  wf : WF0 r.ps.dt.dbMap
  len : r.watch.length = r.ps.insts.length
  watch : ∀ (j : Nat) (i : Inst) (w : Watch), r.ps.insts[j]? = some i → r.watch[j]? = some w → WatchInv r.ps.dt.dbMap i w
  total : ∀ w ∈ r.watch, ∀ k ∈ w.first ++ w.wrote, k ∈ r.total
  keys : ∀ k ∈ r.ps.dt.dbMap.keys, k ∈ r.total
  size : r.total.length < 2 ^ 64 → r.ps.dt.dbMap.length ≤ r.ps.dt.n.toNat + r.since

theorem seen_total {r : RS} (h : RInv r) {j : Nat} {i : Inst} {w : Watch} (hi : r.ps.insts[j]? = some i)
    (hw : r.watch[j]? = some w) : i.met.length ≤ r.total.length := by
  have hv := h.watch j i w hi hw
  exact Nat.le_trans hv.met (nodup_length_le hv.seenNodup fun k hk =>
    h.total w (List.mem_of_getElem? hw) k (hv.seen k hk))

/-- At the end of a scan. -/
theorem end_facts {P : PEnv} {dt : Data} {now : Int64} {r : RS} {j : Nat} {s' : PS} (hi : dt.initialized = true)
    (hr : Reach P true (initial dt now) r.ps) (h : RInv r) (hc : complete r (.act j .endScan) = true)
    (hs : step P true r.ps (.act j .endScan) = some s') (ht : r.total.length < 2 ^ 64) :
    ∃ i w, r.ps.insts[j]? = some i ∧ r.watch[j]? = some w ∧ s'.dt.dbMap = r.ps.dt.dbMap ∧
      s'.dt.n.toNat = i.met.length ∧ w.owed.length ≤ i.met.length := by
  have hs := sstep_of hs
  cases hs with
  | @act _ i i' _ dt' acks hj hst =>
    unfold complete at hc
    simp only [hj] at hc
    cases hw : r.watch[j]? with
    | none => rw [hw] at hc; cases hc
    | some w =>
      rw [hw] at hc
      simp only at hc
      have hv := h.watch j i w hj hw
      have hm := seen_total h hj hw
      have hb := ((basic_reach hi hr).2.2 i (List.mem_of_getElem? hj)).n
      cases hst with
      | endScan hp _ =>
        refine ⟨i, w, hj, rfl, rfl, ?_, ?_⟩
        · show i.stats.n.toNat = _
          rw [hb, UInt64.toNat_ofNat']
          exact Nat.mod_eq_of_lt (by omega)
        · have he : w.owed.filter (fun k => i.seen.contains k) = w.owed :=
            List.filter_eq_self.2 fun k hk => List.all_eq_true.1 hc k hk
          have := hv.owedMet
          rw [he] at this
          exact this

theorem insts_step {P : PEnv} {s s' : PS} {l : Label} (h : SStep P true s l s') :
    (s'.insts = s.insts) ∨ (∃ i, s'.insts = s.insts ++ [i] ∧ i.seen = [] ∧ i.met = [] ∧ s'.dt.dbMap = s.dt.dbMap) ∨
    (∃ j i i' x acks', l = .act j x ∧ s.insts[j]? = some i ∧ s'.insts = s.insts.set j i' ∧
      IStep P true s.now s.dt s.acks i x s'.dt acks' i') := by
  cases h with
  | run _ hf => exact .inr (.inl ⟨_, rfl, hf.seen, hf.met, rfl⟩)
  | closeRun _ _ _ hf => exact .inr (.inl ⟨_, rfl, hf.seen, hf.met, rfl⟩)
  | act hj hst => exact .inr (.inr ⟨_, _, _, _, _, rfl, hj, rfl, hst⟩)
  | _ => exact .inl rfl

theorem rinv_step {P : PEnv} {dt : Data} {now : Int64} {r r' : RS} {l : Label} (hi : dt.initialized = true)
    (hr : Reach P true (initial dt now) r.ps) (h : RInv r) (hs : rstep P r l = some r') : RInv r' := by
  obtain ⟨hc, s', hst, rfl⟩ := rstep_inv hs
  have hch := step_change hst h.init
  have hss := sstep_of hst
  have hini := (sstep_alive hss h.init).1
  have hwf' := change_wf0 hch h.wf
  have hn := insts_step hss
  refine ⟨hini, hwf', ?_, ?_, ?_, ?_, ?_⟩
  · simp only [advance, List.length_append, List.length_map]
    have hl := h.len
    rcases hn with he | ⟨i, he, _⟩ | ⟨j, i, i', x, acks', _, _, he, _⟩
    · simp [he, hl]
    · simp [he, hl]
    · simp [he, hl]
  · intro j i w hj hw
    simp only [advance] at hj hw ⊢
    rcases hn with he | ⟨i0, he, h1, h2, hdb⟩ | ⟨j0, i0, i0', x, acks', hl, hj0, he, hist⟩
    · rw [he] at hj hw
      simp only [Nat.lt_irrefl, if_false, List.append_nil, List.getElem?_map, Option.map_eq_some_iff] at hw
      obtain ⟨w0, hw0, rfl⟩ := hw
      exact watchInv_change (h.watch j i w0 hj hw0) hch h.wf
    · rw [he] at hj hw
      simp only [List.length_append, List.length_singleton, Nat.lt_succ_self, if_true] at hw
      by_cases hjl : j < r.ps.insts.length
      · rw [List.getElem?_append_left hjl] at hj
        rw [List.getElem?_append_left (by rw [List.length_map, h.len]; exact hjl), List.getElem?_map,
          Option.map_eq_some_iff] at hw
        obtain ⟨w0, hw0, rfl⟩ := hw
        exact watchInv_change (h.watch j i w0 hj hw0) hch h.wf
      · have hjl' : r.ps.insts.length ≤ j := Nat.le_of_not_lt hjl
        rw [List.getElem?_append_right hjl'] at hj
        rw [List.getElem?_append_right (by rw [List.length_map, h.len]; exact hjl'), List.length_map, h.len] at hw
        have h0 : j - r.ps.insts.length = 0 := by
          apply Classical.byContradiction
          intro hne
          rw [List.getElem?_eq_none (by simp only [List.length_singleton]; omega)] at hj
          cases hj
        rw [h0] at hj hw
        simp only [List.getElem?_cons_zero, Option.some.injEq] at hj hw
        subst hj; subst hw
        exact watchInv_fresh hwf' h1 h2
    · rw [he] at hj hw
      simp only [List.length_set, Nat.lt_irrefl, if_false, List.append_nil, List.getElem?_map, Option.map_eq_some_iff] at hw
      obtain ⟨w0, hw0, rfl⟩ := hw
      by_cases hjj : j0 = j
      · subst hjj
        have hlt : j0 < r.ps.insts.length := by
          rcases Nat.lt_or_ge j0 r.ps.insts.length with h | h
          · exact h
          · rw [List.getElem?_eq_none h] at hj0; cases hj0
        rw [List.getElem?_set_self hlt] at hj
        cases hj
        exact watchInv_act hist (h.watch j0 i0 w0 hj0 hw0) h.wf _
      · rw [List.getElem?_set_ne hjj] at hj
        exact watchInv_change (h.watch j i w0 hj hw0) hch h.wf
  · intro w hw k hk
    simp only [advance] at hw ⊢
    rcases List.mem_append.1 hw with hw | hw
    · obtain ⟨w0, hw0, rfl⟩ := List.mem_map.1 hw
      simp only [Watch.next] at hk
      rcases List.mem_append.1 hk with hk | hk
      · exact List.mem_append_right _ (h.total w0 hw0 k (List.mem_append_left _ hk))
      · rcases List.mem_append.1 hk with hk | hk
        · exact List.mem_append_left _ hk
        · exact List.mem_append_right _ (h.total w0 hw0 k (List.mem_append_right _ hk))
    · split at hw
      · rw [List.mem_singleton.1 hw] at hk
        simp only [List.append_nil] at hk
        rcases change_keys hch hk with hk | hk
        · exact List.mem_append_right _ (h.keys k hk)
        · exact List.mem_append_left _ hk
      · cases hw
  · intro k hk
    simp only [advance] at hk ⊢
    rcases change_keys hch hk with hk | hk
    · exact List.mem_append_right _ (h.keys k hk)
    · exact List.mem_append_left _ hk
  · intro ht
    simp only [advance, List.length_append] at ht ⊢
    have ht0 : r.total.length < 2 ^ 64 := by omega
    by_cases hend : ∃ j, l = .act j .endScan
    · obtain ⟨j, rfl⟩ := hend
      obtain ⟨i, w, hj, hw, hdb, hnn, hle⟩ := end_facts hi hr h hc hst ht0
      have hv := (h.watch j i w hj hw).size
      simp only [hw, Option.map_some, Option.getD_some]
      rw [hdb, hnn]
      omega
    · have hnc := n_const hss (fun j hj => hend ⟨j, hj⟩)
      rw [hnc]
      have h1 := h.size ht0
      have h2 := change_length hch
      split
      · exact absurd ⟨_, rfl⟩ hend
      · omega

theorem rinv_reach {P : PEnv} {dt : Data} {now : Int64} (hi : dt.initialized = true) (h0 : dt.dbMap = []) {r : RS}
    (h : RReach P (rinitial dt now) r) : RInv r := by
  induction h with
  | refl =>
    refine ⟨hi, ?_, rfl, ?_, ?_, ?_, ?_⟩
    · show WF0 dt.dbMap
      rw [h0]; exact wf_nil.toWF0
    · intro j i w hj; simp [rinitial, initial] at hj
    · intro w hw; cases hw
    · intro k hk
      have : k ∈ dt.dbMap.keys := hk
      rw [h0] at this; cases this
    · intro _
      show dt.dbMap.length ≤ _
      rw [h0]; exact Nat.zero_le _
  | step l hr hs ih => exact rinv_step hi (rreach_reach hr) ih hs

end Proc
open Gencoder Proc
open Store hiding Label

/-! ### C16 and C43 while clients write -/

/-- C16, what holds in every execution: clients insert and delete while any number of maintenance runs scan, transfer and
evict.  The store never holds more than the reported size and the inserts accepted since the run that reported it began,
so an accepted insert leaves fewer data than the target and those inserts (itself included) together; and a data set whose
reported size has reached the target accepts nothing.  An insert is one step here.  Missing: the bound by the target itself
(`C16_target_fails`). -/
theorem C16_concurrent_partial (P : PEnv) (c : DataConfig) (hc : c.noTarget = false) (now : Int64) (r r' : RS)
    (h : RReach P (rinitial (Data.newData c) now) r) (datum : Datum) (config : Option InsertConfig)
    (hs : rstep P r (.write datum config) = some r') (ht : r'.total.length < 2 ^ 64) :
    r'.ps.dt.dbMap.length ≤ r'.ps.dt.n.toNat + r'.since ∧
    (accepted r.ps (.write datum config) ≠ [] →
      r'.since = r.since + 1 ∧ r'.ps.dt.dbMap.length < c.targetN.toNat + r'.since) ∧
    (c.targetN ≤ r.ps.dt.n → accepted r.ps (.write datum config) = [] ∧ r'.ps.dt.dbMap = r.ps.dt.dbMap) := by
  have hinv := rinv_reach rfl rfl h
  have hinv' := rinv_step rfl (rreach_reach h) hinv hs
  have hcf : r.ps.dt.config = some c := (basic_reach rfl (rreach_reach h)).2.1
  have hsz := hinv'.size ht
  obtain ⟨_, s', hst, rfl⟩ := rstep_inv hs
  have hss := sstep_of hst
  cases hss with
  | @write _ _ out _ ho =>
    have hacc : accepted r.ps (.write datum config) =
        if out.err = some .overTarget then [] else [(getKeyAsBytes datum).getD []] := by
      simp only [accepted, ho]
    refine ⟨hsz, ?_, ?_⟩
    · intro ha
      rcases insert_data_cases ho hinv.init with ⟨_, _, he⟩ | ⟨hf, he, hn, _⟩
      · rw [hacc, if_pos he] at ha; exact absurd rfl ha
      · have hlt : r.ps.dt.n.toNat < c.targetN.toNat := by
          rw [← UInt64.lt_iff_toNat_lt]
          apply Classical.byContradiction
          intro hlt
          exact hf ⟨c, hcf, hc, UInt64.not_lt.1 hlt⟩
        simp only [advance] at hsz ⊢
        rw [hacc, if_neg he] at hsz ⊢
        simp only [List.length_singleton] at hsz ⊢
        rw [hn] at hsz
        exact ⟨by omega, by omega⟩
    · intro hle
      rcases insert_data_cases ho hinv.init with ⟨_, hd, he⟩ | ⟨hf, _⟩
      · rw [hacc, if_pos he]
        exact ⟨rfl, by simp only [advance, hd]⟩
      · exact absurd ⟨c, hcf, hc, hle⟩ hf

/-- C43 while clients write: a run reports at least the number of data that were stored all the time from its beginning
to its end, and at most the number of data stored at its beginning and of inserts accepted since. -/
theorem C43_concurrent (P : PEnv) (c : DataConfig) (now : Int64) (r r' : RS) (j : Nat)
    (h : RReach P (rinitial (Data.newData c) now) r) (hs : rstep P r (.act j .endScan) = some r')
    (ht : r.total.length < 2 ^ 64) :
    ∃ w, r.watch[j]? = some w ∧ w.owed.length ≤ r'.ps.dt.n.toNat ∧
      r'.ps.dt.n.toNat ≤ w.first.length + w.wrote.length := by
  have hinv := rinv_reach rfl rfl h
  obtain ⟨hc, s', hst, rfl⟩ := rstep_inv hs
  obtain ⟨i, w, hj, hw, _, hn, hle⟩ := end_facts rfl (rreach_reach h) hinv hc hst ht
  have hv := hinv.watch j i w hj hw
  refine ⟨w, hw, ?_, ?_⟩
  · show _ ≤ s'.dt.n.toNat
    rw [hn]; exact hle
  · show s'.dt.n.toNat ≤ _
    rw [hn, ← List.length_append]
    exact Nat.le_trans hv.met (nodup_length_le hv.seenNodup hv.seen)

/-- Target 1: an insert, a run, and a second insert during the scan, which does not come to it. -/
def Proc.exBusy : List Label :=
  [.write (exD 1 1) none, .setSources (exSources ["a"]), .run (fun _ => none) ["a"], .write (exD 2 1) none,
   .act 0 (.meet (exK 1)), .act 0 (.offer 0)]

set_option synthInstance.maxSize 1000 in
set_option synthInstance.maxHeartbeats 200000 in
/-- C16 and C43 are not empty, and the first bound of C16 is met with equality: the run reports 1, one insert was accepted
since it began, and two data are stored.  The next insert is refused. -/
theorem C16_concurrent_example : ∃ r r' r'' w,
    RReach softP (rinitial (Data.newData ⟨"example", 0, 1, 0, false, 0, false, 0⟩) 1000) r ∧
    rstep softP r (.act 0 .endScan) = some r' ∧ rstep softP r' (.write (exD 3 1) none) = some r'' ∧
    r.watch[0]? = some w ∧ w = ⟨[exK 1], [exK 1], [exK 2]⟩ ∧
    r'.ps.dt.n = 1 ∧ r'.since = 1 ∧ r'.ps.dt.dbMap.length = 2 ∧ accepted r'.ps (.write (exD 3 1) none) = [] ∧
    r''.ps.dt.dbMap.length = 2 := by
  have ht : ((rexec softP (rinitial (Data.newData ⟨"example", 0, 1, 0, false, 0, false, 0⟩) 1000) exBusy).bind fun r =>
      (rstep softP r (.act 0 .endScan)).bind fun r' => (rstep softP r' (.write (exD 3 1) none)).map fun r'' =>
        (r.watch[0]?, r'.ps.dt.n, r'.since, r'.ps.dt.dbMap.length, accepted r'.ps (.write (exD 3 1) none),
          r''.ps.dt.dbMap.length)) =
      some (some ⟨[exK 1], [exK 1], [exK 2]⟩, 1, 1, 2, [], 2) := by decide +kernel
  cases he : rexec softP (rinitial (Data.newData ⟨"example", 0, 1, 0, false, 0, false, 0⟩) 1000) exBusy with
  | none => rw [he] at ht; cases ht
  | some r =>
    rw [he] at ht
    simp only [Option.bind_some] at ht
    cases hs : rstep softP r (.act 0 .endScan) with
    | none => rw [hs] at ht; cases ht
    | some r' =>
      rw [hs] at ht
      simp only [Option.bind_some] at ht
      cases hs' : rstep softP r' (.write (exD 3 1) none) with
      | none => rw [hs'] at ht; cases ht
      | some r'' =>
        rw [hs'] at ht
        simp only [Option.map_some, Option.some.injEq, Prod.mk.injEq] at ht
        obtain ⟨h1, h2, h3, h4, h5, h6⟩ := ht
        exact ⟨r, r', r'', _, rreach_exec _ .refl he, hs, hs', h1, rfl, h2, h3, h4, h5, h6⟩

/-- An accepted insert: the first one. -/
theorem C16_accepted_example : ∃ r',
    rstep softP (rinitial (Data.newData ⟨"example", 0, 1, 0, false, 0, false, 0⟩) 1000) (.write (exD 1 1) none) = some r' ∧
    accepted (initial (Data.newData ⟨"example", 0, 1, 0, false, 0, false, 0⟩) 1000) (.write (exD 1 1) none) = [exK 1] ∧
    r'.since = 1 := by
  have ht : (rstep softP (rinitial (Data.newData ⟨"example", 0, 1, 0, false, 0, false, 0⟩) 1000)
      (.write (exD 1 1) none)).map (·.since) = some 1 := by decide +kernel
  obtain ⟨r', h1, h2⟩ := Option.map_eq_some_iff.1 ht
  exact ⟨r', h1, by decide +kernel, h2⟩

end Veri
