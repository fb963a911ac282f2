import Verif.Race.Words
import Verif.Annoy.Use
/-
C118, C119: requests for information about a data set while its maintenance runs.  data/data.go:205-219 `GetDataInfo` reads the fields
of the data set without its lock, data/newsync.go:198-226 writes them without it.
-/
set_option autoImplicit false
namespace Veri
namespace Race
open Gencoder Proc Store

/-- The words that `GetDataInfo` reads.  A slice is a pointer to its array and a length (its capacity is not used).  Each field of the
configuration is read through the pointer `dt.Config` anew (data/data.go:213-217). -/
inductive Word where
  | avgPtr | avgLen | histPtr | histLen | maxDistance | n | timestamp | name | version | targetN | targetUtilization | noTarget
  deriving DecidableEq, Repr

def allWords : List Word :=
  [.avgPtr, .avgLen, .histPtr, .histLen, .maxDistance, .n, .timestamp, .name, .version, .targetN, .targetUtilization, .noTarget]

/-- Their values.  A pointer to an array is represented by the elements of the array: no array is changed once it has been assigned
(data/newsync.go:139-140: each run makes new ones). -/
abbrev Val : Word → Type
  | .avgPtr => List F32
  | .avgLen => Nat
  | .histPtr => List F32
  | .histLen => Nat
  | .maxDistance => F64
  | .n => UInt64
  | .timestamp => UInt64
  | .name => String
  | .version => UInt64
  | .targetN => UInt64
  | .targetUtilization => F64
  | .noTarget => Bool

/-- The words of a data set with this information. -/
def cells (i : DataInfo) : (w : Word) → Val w
  | .avgPtr => i.avg
  | .avgLen => i.avg.length
  | .histPtr => i.hist
  | .histLen => i.hist.length
  | .maxDistance => i.maxDistance
  | .n => i.n
  | .timestamp => i.timestamp
  | .name => i.name
  | .version => i.version
  | .targetN => i.targetN
  | .targetUtilization => i.targetUtilization
  | .noTarget => i.noTarget

/-- The elements of a slice.  `panic`: memory is read that does not belong to the array (for a nil pointer the process ends). -/
def elements (ptr : List F32) (len : Nat) : Res (List F32) := if len ≤ ptr.length then .ok (ptr.take len) else .panic

/-- data/data.go:205-219: the answer made of the words read. -/
def assemble (g : (w : Word) → Val w) : Res DataInfo :=
  (elements (g .avgPtr) (g .avgLen)).bind fun avg =>
  (elements (g .histPtr) (g .histLen)).bind fun hist =>
  .ok { name := g .name, timestamp := g .timestamp, version := g .version, avg := avg, hist := hist, n := g .n,
        maxDistance := g .maxDistance, targetN := g .targetN, targetUtilization := g .targetUtilization, noTarget := g .noTarget,
        replicationOnInsert := 0, enforceReplicationOnInsert := false, retention := 0 }

/-- A request for information can be answered with `out` if the data set has the information `i` when it comes, and successively that
of `is` until it is answered. -/
def Answers (i : DataInfo) (is : List DataInfo) (out : Res DataInfo) : Prop :=
  ∃ g, Obtains allWords (cells i) (is.map cells) g ∧ assemble g = out

/-- The states an execution goes through. -/
def visited (P : PEnv) (W : Bool) : PS → List Proc.Label → List PS
  | _, [] => []
  | s, l :: ls =>
    match Proc.step P W s l with
    | none => []
    | some t => t :: visited P W t ls

/-- The information of the data set, without any concurrency, in each of the states. -/
def Infos (l : List PS) (is : List DataInfo) : Prop := l.map (fun s => s.dt.getDataInfo) = is.map Res.ok

theorem allWords_all : ∀ w, w ∈ allWords := by intro w; cases w <;> decide

/-- Each word read is that of some moment. -/
theorem obtains_words (i : DataInfo) (is : List DataInfo) (g : (w : Word) → Val w) :
    Obtains allWords (cells i) (is.map cells) g ↔ ∀ w, ∃ x ∈ i :: is, g w = cells x w := by
  rw [obtains_iff allWords allWords_all (by decide)]
  rw [← List.map_cons (f := cells)]
  constructor
  · intro h w
    obtain ⟨x, hx, he⟩ := h w
    obtain ⟨y, hy, rfl⟩ := List.mem_map.1 hx
    exact ⟨y, hy, he⟩
  · intro h w
    obtain ⟨x, hx, he⟩ := h w
    exact ⟨_, List.mem_map.2 ⟨x, hx, rfl⟩, he⟩

end Race
open Race Proc

/-! ### C118 -/

/-- C118, full statement: an answer is the information of the data set at one moment while the request is served.  FALSE of the code. -/
def C118_one_moment_statement : Prop :=
  ∀ (P : PEnv) (c : DataConfig) (now : Int64) (ls ls' : List Proc.Label) (s s' : PS),
    Proc.exec P true (initial (Data.newData c) now) ls = some s → Proc.exec P true s ls' = some s' →
    ∀ (i : DataInfo) (is : List DataInfo), Infos (s :: visited P true s ls') (i :: is) →
    ∀ out, Answers i is (.ok out) → out ∈ i :: is

/-- C118.  Exactly: every field of an answer is that of some moment while the request is served, and any combination is possible; the
vectors may be cut to the length of an earlier or later one. -/
theorem C118_exact (i : DataInfo) (is : List DataInfo) (out : DataInfo) : Answers i is (.ok out) ↔
    (∃ a ∈ i :: is, ∃ b ∈ i :: is, b.avg.length ≤ a.avg.length ∧ out.avg = a.avg.take b.avg.length) ∧
    (∃ a ∈ i :: is, ∃ b ∈ i :: is, b.hist.length ≤ a.hist.length ∧ out.hist = a.hist.take b.hist.length) ∧
    (∃ x ∈ i :: is, out.maxDistance = x.maxDistance) ∧ (∃ x ∈ i :: is, out.n = x.n) ∧ (∃ x ∈ i :: is, out.timestamp = x.timestamp) ∧
    (∃ x ∈ i :: is, out.name = x.name) ∧ (∃ x ∈ i :: is, out.version = x.version) ∧ (∃ x ∈ i :: is, out.targetN = x.targetN) ∧
    (∃ x ∈ i :: is, out.targetUtilization = x.targetUtilization) ∧ (∃ x ∈ i :: is, out.noTarget = x.noTarget) ∧
    out.replicationOnInsert = 0 ∧ out.enforceReplicationOnInsert = false ∧ out.retention = 0 := by
  constructor
  · rintro ⟨g, hg, ho⟩
    rw [obtains_words] at hg
    unfold assemble elements at ho
    by_cases h1 : g .avgLen ≤ (g .avgPtr).length
    · by_cases h2 : g .histLen ≤ (g .histPtr).length
      · rw [if_pos h1, if_pos h2] at ho
        simp only [Res.bind, Res.ok.injEq] at ho
        subst ho
        obtain ⟨a, ha, hae⟩ := hg .avgPtr
        obtain ⟨b, hb, hbe⟩ := hg .avgLen
        obtain ⟨c, hc, hce⟩ := hg .histPtr
        obtain ⟨d, hd, hde⟩ := hg .histLen
        rw [hae, hbe] at h1
        rw [hce, hde] at h2
        refine ⟨⟨a, ha, b, hb, h1, ?_⟩, ⟨c, hc, d, hd, h2, ?_⟩, hg .maxDistance, hg .n, hg .timestamp, hg .name, hg .version, hg .targetN,
          hg .targetUtilization, hg .noTarget, rfl, rfl, rfl⟩
        · simp only [hae, hbe]; rfl
        · simp only [hce, hde]; rfl
      · rw [if_pos h1, if_neg h2] at ho; cases ho
    · rw [if_neg h1] at ho; cases ho
  · rintro ⟨⟨a, ha, b, hb, h1, e1⟩, ⟨c, hc, d, hd, h2, e2⟩, hm, hn, ht, hna, hv, htn, htu, hnt, r1, r2, r3⟩
    let g : (w : Word) → Val w
      | .avgPtr => a.avg
      | .avgLen => b.avg.length
      | .histPtr => c.hist
      | .histLen => d.hist.length
      | .maxDistance => out.maxDistance
      | .n => out.n
      | .timestamp => out.timestamp
      | .name => out.name
      | .version => out.version
      | .targetN => out.targetN
      | .targetUtilization => out.targetUtilization
      | .noTarget => out.noTarget
    refine ⟨g, (obtains_words i is g).2 ?_, ?_⟩
    · intro w
      cases w
      · exact ⟨a, ha, rfl⟩
      · exact ⟨b, hb, rfl⟩
      · exact ⟨c, hc, rfl⟩
      · exact ⟨d, hd, rfl⟩
      all_goals assumption
    · obtain ⟨name, ts, v, avg, hist, n, md, tn, tu, nt, r, e, rt⟩ := out
      simp only at e1 e2 r1 r2 r3
      subst e1 e2 r1 r2 r3
      show (elements a.avg b.avg.length).bind _ = _
      unfold elements
      rw [if_pos h1]
      show (elements c.hist d.hist.length).bind _ = _
      unfold elements
      rw [if_pos h2]
      rfl

/-- C118.  If the information does not change while the request is served, the answer is that information. -/
theorem C118_quiet_partial (i : DataInfo) (is : List DataInfo) (hq : ∀ x ∈ is, x = i)
    (hr : i.replicationOnInsert = 0 ∧ i.enforceReplicationOnInsert = false ∧ i.retention = 0) (out : Res DataInfo) (h : Answers i is out) :
    out = .ok i := by
  obtain ⟨g, hg, ho⟩ := h
  rw [obtains_words] at hg
  have hall : ∀ x ∈ i :: is, x = i := fun x hx => (List.mem_cons.1 hx).elim id (hq x)
  have hgw : ∀ w, g w = cells i w := fun w => by
    obtain ⟨x, hx, he⟩ := hg w
    rw [he, hall x hx]
  have : g = cells i := funext hgw
  subst this
  rw [← ho]
  unfold assemble elements cells
  simp only [Nat.le_refl, if_true, Res.bind, List.take_length]
  obtain ⟨name, ts, v, avg, hist, n, md, tn, tu, nt, r, e, rt⟩ := i
  obtain ⟨h1, h2, h3⟩ := hr
  simp only at h1 h2 h3
  subst h1 h2 h3
  rfl

/-! ### C119 -/

/-- C119, full statement: no request for information reads memory that is not its own.  FALSE of the code. -/
def C119_memory_statement : Prop :=
  ∀ (P : PEnv) (c : DataConfig) (now : Int64) (ls ls' : List Proc.Label) (s s' : PS),
    Proc.exec P true (initial (Data.newData c) now) ls = some s → Proc.exec P true s ls' = some s' →
    ∀ (i : DataInfo) (is : List DataInfo), Infos (s :: visited P true s ls') (i :: is) → ¬ Answers i is .panic

/-- C119.  Exactly: it can happen if and only if the length of the average or of the histogram changes while the request is served. -/
theorem C119_exact (i : DataInfo) (is : List DataInfo) : Answers i is .panic ↔
    ∃ a ∈ i :: is, ∃ b ∈ i :: is, a.avg.length < b.avg.length ∨ a.hist.length < b.hist.length := by
  constructor
  · rintro ⟨g, hg, ho⟩
    rw [obtains_words] at hg
    obtain ⟨a, ha, hae⟩ := hg .avgPtr
    obtain ⟨b, hb, hbe⟩ := hg .avgLen
    obtain ⟨c, hc, hce⟩ := hg .histPtr
    obtain ⟨d, hd, hde⟩ := hg .histLen
    unfold assemble elements at ho
    by_cases h1 : g .avgLen ≤ (g .avgPtr).length
    · by_cases h2 : g .histLen ≤ (g .histPtr).length
      · rw [if_pos h1, if_pos h2] at ho; cases ho
      · rw [hce, hde] at h2
        exact ⟨c, hc, d, hd, .inr (Nat.lt_of_not_le h2)⟩
    · rw [hae, hbe] at h1
      exact ⟨a, ha, b, hb, .inl (Nat.lt_of_not_le h1)⟩
  · rintro ⟨a, ha, b, hb, h⟩
    let g : (w : Word) → Val w
      | .avgPtr => a.avg
      | .avgLen => b.avg.length
      | .histPtr => a.hist
      | .histLen => b.hist.length
      | w => cells i w
    refine ⟨g, (obtains_words i is g).2 ?_, ?_⟩
    · intro w
      cases w
      · exact ⟨a, ha, rfl⟩
      · exact ⟨b, hb, rfl⟩
      · exact ⟨a, ha, rfl⟩
      · exact ⟨b, hb, rfl⟩
      all_goals exact ⟨i, List.mem_cons_self, rfl⟩
    · show (elements a.avg b.avg.length).bind _ = _
      unfold elements
      split
      · show (elements a.hist b.hist.length).bind _ = _
        unfold elements
        rw [if_neg (by omega)]
        rfl
      · rfl

/-! ### The statistics of a data set -/

namespace Race

/-- The statistics of the data set are those of no run, or of a finished run. -/
structure HInv (A : List F32 → UInt64 → Prop) (s : PS) : Prop where
  init : s.dt.initialized = true
  insts : ∀ i ∈ s.insts, i.stats.hist.length = 64 ∧ A i.stats.avg i.stats.n
  dt : (s.dt.hist = [] ∧ s.dt.avg = [] ∧ s.dt.n = 0 ∧ ∀ i ∈ s.insts, i.phase ≠ .finished) ∨
    (s.dt.hist.length = 64 ∧ A s.dt.avg s.dt.n ∧ ∃ i ∈ s.insts, i.phase = .finished)

theorem hinv_same {A : List F32 → UInt64 → Prop} {s : PS} {dt : Data} {acks : List Ack} {j : Nat} {i i' : Inst} (h : HInv A s)
    (hini : dt.initialized = true) (hj : s.insts[j]? = some i) (hd : dt.hist = s.dt.hist ∧ dt.avg = s.dt.avg ∧ dt.n = s.dt.n)
    (hs : i'.stats.hist.length = 64 ∧ A i'.stats.avg i'.stats.n) (hp : i'.phase = .finished ↔ i.phase = .finished) :
    HInv A { s with dt := dt, acks := acks, insts := s.insts.set j i' } := by
  obtain ⟨d1, d2, d3⟩ := hd
  refine ⟨hini, ?_, ?_⟩
  · intro x hx
    rcases mem_set_list hx with rfl | hx
    · exact hs
    · exact h.insts x hx
  · rcases h.dt with ⟨h1, h2, h3, h4⟩ | ⟨h1, h2, y, hy, hyp⟩
    · refine .inl ⟨by simpa [d1] using h1, by simpa [d2] using h2, by simpa [d3] using h3, ?_⟩
      intro x hx
      rcases mem_set_list hx with rfl | hx
      · rw [Ne, hp]; exact h4 i (List.mem_of_getElem? hj)
      · exact h4 x hx
    · refine .inr ⟨by simpa [d1] using h1, by simpa [d2, d3] using h2, ?_⟩
      obtain ⟨k, hk⟩ := List.getElem?_of_mem hy
      by_cases hkj : k = j
      · subst hkj
        rw [hj] at hk; cases hk
        refine ⟨i', ?_, hp.2 hyp⟩
        obtain ⟨hlt, _⟩ := List.getElem?_eq_some_iff.1 hj
        exact List.mem_of_getElem? (i := k) (by rw [List.getElem?_set_self hlt])
      · exact ⟨y, List.mem_of_getElem? (i := k) (by rw [List.getElem?_set_ne (Ne.symm hkj)]; exact hk), hyp⟩

theorem hinv_step {A : List F32 → UInt64 → Prop} {P : PEnv} {W : Bool} {s s' : PS} {l : Proc.Label} (h : HInv A s) (h0 : A [] 0)
    (hm : ∀ p ∈ s.dt.dbMap, ∀ k, p.2.datum.key = some k → ∀ i ∈ s.insts, A i.stats.avg i.stats.n →
      A (meetEntry P s.dt i p.2 k).stats.avg (meetEntry P s.dt i p.2 k).stats.n)
    (hs : SStep P W s l s') : HInv A s' := by
  have hid : s.dt.initData = s.dt := Data.initData_of_initialized h.init
  obtain ⟨hini, _, _⟩ := sstep_alive hs h.init
  have hfresh : ∀ (t : PS) (i : Inst), t.insts = s.insts ++ [i] → t.dt = { s.dt with recentInsertCount := 0 } → i.stats = Stats.fresh P.o →
      i.phase = .scanning → HInv A t := by
    intro t i hi hd hst hp
    refine ⟨by rw [hd]; exact h.init, ?_, ?_⟩
    · intro x hx
      rw [hi] at hx
      rcases List.mem_append.1 hx with hx | hx
      · exact h.insts x hx
      · rw [List.mem_singleton.1 hx, hst]; exact ⟨by simp [Stats.fresh], h0⟩
    · rw [hd, hi]
      rcases h.dt with ⟨h1, h2, h3, h4⟩ | ⟨h1, h2, y, hy, hyp⟩
      · refine .inl ⟨h1, h2, h3, ?_⟩
        intro x hx
        rcases List.mem_append.1 hx with hx | hx
        · exact h4 x hx
        · rw [List.mem_singleton.1 hx, hp]; exact nofun
      · exact .inr ⟨h1, h2, y, List.mem_append.2 (.inl hy), hyp⟩
  cases hs with
  | setSources => exact ⟨hini, h.insts, by rw [hid]; exact h.dt⟩
  | run _ hf => exact hfresh _ _ rfl rfl hf.stats hf.phase
  | closeRun _ _ _ hf => exact hfresh _ _ rfl rfl hf.stats hf.phase
  | @act j i i' a dt' acks hj hist =>
    have hmem := List.mem_of_getElem? hj
    have hi := h.insts i hmem
    cases hist with
    | @meet k e key hp he hns hx hk =>
      refine hinv_same h hini hj ⟨rfl, rfl, rfl⟩ ⟨?_, hm (k, e) (AMap.mem_of_get? he) key hk i hmem hi.2⟩ (by simp [meetEntry, hp])
      simp only [meetEntry, Stats.meet]
      split
      · exact hi.1
      · rw [List.length_modify]; exact hi.1
    | endScan hp hall =>
      refine ⟨hini, ?_, .inr ⟨hi.1, hi.2, { i with phase := .finished }, ?_, rfl⟩⟩
      · intro x hx
        rcases mem_set_list hx with rfl | hx
        · exact hi
        · exact h.insts x hx
      · obtain ⟨hlt, _⟩ := List.getElem?_eq_some_iff.1 hj
        exact List.mem_of_getElem? (i := j) (by rw [List.getElem?_set_self hlt])
    | purge hp => exact hinv_same h hini hj ⟨rfl, rfl, rfl⟩ hi Iff.rfl
    | offer hp => exact hinv_same h hini hj ⟨rfl, rfl, rfl⟩ hi (by simp [hp])
    | skip hp => exact hinv_same h hini hj ⟨rfl, rfl, rfl⟩ hi (by simp [hp])
    | send hp => exact hinv_same h hini hj ⟨rfl, rfl, rfl⟩ hi (by simp [hp])
    | handover hp => exact hinv_same h hini hj ⟨rfl, rfl, rfl⟩ hi (by simp [hp])
    | _ => exact hinv_same h hini hj ⟨rfl, rfl, rfl⟩ hi Iff.rfl
  | @write datum config out hW ho =>
    rcases Data.insert_cases _ _ _ _ _ _ _ _ ho with ⟨_, rfl⟩ | ⟨_, d, _, m, b, hdd, _, hm, hd, _⟩
    · exact ⟨hini, h.insts, h.dt⟩
    · refine ⟨hini, h.insts, ?_⟩
      simp only [hd, hid]
      exact h.dt
  | @delete datum dt' hW ho =>
    obtain ⟨m, rfl⟩ := delete_frame ho
    exact ⟨hini, h.insts, h.dt⟩
  | _ => exact ⟨hini, h.insts, h.dt⟩

/-- For the lengths that matter: nothing, or the common length of the vectors. -/
def Fits (d : Nat) (avg : List F32) (n : UInt64) : Prop := avg.length = d ∨ avg = [] ∧ n = 0

theorem addInto_length {S D : Type} (o : FOps S D) (n : S) : ∀ (a p : List S), (Stats.addInto o n a p).length = a.length
  | [], [] => rfl
  | [], _ :: _ => rfl
  | _ :: _, [] => rfl
  | a :: as, p :: ps => by simp [Stats.addInto, addInto_length o n as ps]

theorem fits_meet {d : Nat} {P : PEnv} {dt : Data} {i : Inst} {e : Entry} {k : DatumKey} (hk : k.feature.length = d)
    (h : Fits d i.stats.avg i.stats.n) : Fits d (meetEntry P dt i e k).stats.avg (meetEntry P dt i e k).stats.n := by
  left
  simp only [meetEntry, Stats.meet, Stats.calculateAverage]
  split
  · exact hk
  · rw [addInto_length]
    split
    · simpa using hk
    · rename_i hlt
      rcases h with h | ⟨h, _⟩
      · exact h
      · rw [h] at hlt ⊢
        simp only [List.length_nil] at hlt ⊢
        omega

theorem hinv_start (A : List F32 → UInt64 → Prop) (c : DataConfig) (now : Int64) : HInv A (initial (Data.newData c) now) :=
  ⟨rfl, (by intro i hi; cases hi), .inl ⟨rfl, rfl, rfl, (by intro i hi; cases hi)⟩⟩

theorem uinv_start (d : Nat) (c : DataConfig) (now : Int64) : Idx.UInv d (initial (Data.newData c) now) :=
  ⟨rfl, (by intro p hp; cases hp), (by intro i hi; cases hi), (by intro a ha; cases ha)⟩

theorem visited_last {P : PEnv} {W : Bool} : ∀ (ls : List Proc.Label) {s t : PS}, Proc.exec P W s ls = some t → t ∈ s :: visited P W s ls
  | [], s, t, h => by simp only [Proc.exec, Option.some.injEq] at h; subst h; exact List.mem_cons_self
  | l :: ls, s, t, h => by
    simp only [Proc.exec] at h
    cases hs : Proc.step P W s l with
    | none => simp [hs] at h
    | some u =>
      rw [hs] at h
      have := visited_last ls h
      simp only [visited, hs]
      exact List.mem_cons_of_mem _ this

theorem visited_exec {P : PEnv} {W : Bool} : ∀ (ls : List Proc.Label) {s t : PS}, t ∈ s :: visited P W s ls →
    ∃ ls', ls' <+: ls ∧ Proc.exec P W s ls' = some t
  | [], s, t, h => by
    simp only [visited, List.mem_singleton] at h
    exact ⟨[], List.prefix_rfl, by rw [h]; rfl⟩
  | l :: ls, s, t, h => by
    rcases List.mem_cons.1 h with rfl | h
    · exact ⟨[], List.nil_prefix, rfl⟩
    · simp only [visited] at h
      cases hs : Proc.step P W s l with
      | none => simp [hs] at h
      | some u =>
        simp only [hs] at h
        obtain ⟨ls', h1, h2⟩ := visited_exec ls h
        exact ⟨l :: ls', List.cons_prefix_cons.2 ⟨rfl, h1⟩, by simp [Proc.exec, hs, h2]⟩

theorem exec_append' {P : PEnv} {W : Bool} : ∀ (l1 l2 : List Proc.Label) {s t u : PS}, Proc.exec P W s l1 = some t → Proc.exec P W t l2 = some u →
    Proc.exec P W s (l1 ++ l2) = some u
  | [], l2, s, t, u, h1, h2 => by simp only [Proc.exec, Option.some.injEq] at h1; subst h1; exact h2
  | l :: l1, l2, s, t, u, h1, h2 => by
    simp only [Proc.exec, List.cons_append] at h1 ⊢
    cases hs : Proc.step P W s l with
    | none => simp [hs] at h1
    | some v => rw [hs] at h1; exact exec_append' l1 l2 h1 h2

theorem hinv_any {P : PEnv} {W : Bool} : ∀ (ls : List Proc.Label) {s t : PS}, HInv (fun _ _ => True) s → Proc.exec P W s ls = some t →
    HInv (fun _ _ => True) t
  | [], s, t, h, he => by simp only [Proc.exec, Option.some.injEq] at he; exact he ▸ h
  | l :: ls, s, t, h, he => by
    simp only [Proc.exec] at he
    cases hs : Proc.step P W s l with
    | none => simp [hs] at he
    | some v =>
      rw [hs] at he
      exact hinv_any ls (hinv_step h trivial (fun _ _ _ _ _ _ _ => trivial) (sstep_of hs)) he

theorem hinv_fits {P : PEnv} {W : Bool} {d : Nat} : ∀ (ls : List Proc.Label) {s t : PS}, Idx.UInv d s → HInv (Fits d) s →
    (∀ l ∈ ls, Idx.GoodLabel d l) → Proc.exec P W s ls = some t → HInv (Fits d) t
  | [], s, t, _, h, _, he => by simp only [Proc.exec, Option.some.injEq] at he; exact he ▸ h
  | l :: ls, s, t, hu, h, hl, he => by
    simp only [Proc.exec] at he
    cases hs : Proc.step P W s l with
    | none => simp [hs] at he
    | some v =>
      rw [hs] at he
      refine hinv_fits ls (Idx.uinv_step hu (hl l List.mem_cons_self) (sstep_of hs)) (hinv_step h (.inr ⟨rfl, rfl⟩) ?_ (sstep_of hs))
        (fun l h => hl l (List.mem_cons_of_mem _ h)) he
      intro p hp k hk i _ hi
      obtain ⟨k', v', hd, hl'⟩ := hu.store p hp
      rw [hd] at hk
      cases hk
      exact fits_meet hl' hi

/-- The information of a state in the window, and back. -/
theorem infos_mem {l : List PS} {is : List DataInfo} (h : Infos l is) {s : PS} (hs : s ∈ l) : ∃ i ∈ is, s.dt.getDataInfo = .ok i := by
  have : s.dt.getDataInfo ∈ l.map (fun s => s.dt.getDataInfo) := List.mem_map.2 ⟨s, hs, rfl⟩
  rw [h] at this
  obtain ⟨i, hi, he⟩ := List.mem_map.1 this
  exact ⟨i, hi, he.symm⟩

theorem mem_infos {l : List PS} {is : List DataInfo} (h : Infos l is) {i : DataInfo} (hi : i ∈ is) :
    ∃ s ∈ l, s.dt.getDataInfo = .ok i := by
  have : Res.ok i ∈ is.map Res.ok := List.mem_map.2 ⟨i, hi, rfl⟩
  rw [← h] at this
  obtain ⟨s, hs, he⟩ := List.mem_map.1 this
  exact ⟨s, hs, he⟩

theorem info_fields {dt : Data} {i : DataInfo} (h : dt.getDataInfo = .ok i) :
    i.avg = dt.avg ∧ i.hist = dt.hist ∧ i.n = dt.n ∧ i.replicationOnInsert = 0 ∧ i.enforceReplicationOnInsert = false ∧ i.retention = 0 := by
  unfold Data.getDataInfo at h
  split at h
  · cases h
  · cases h; exact ⟨rfl, rfl, rfl, rfl, rfl, rfl⟩

end Race

/-- C119.  On every data set: a request for information that comes before the first run has ended, and is answered after that, can make
the process end. -/
theorem C119_first (P : PEnv) (c : DataConfig) (now : Int64) (ls ls' : List Proc.Label) (s s' : PS)
    (h : Proc.exec P true (initial (Data.newData c) now) ls = some s) (h' : Proc.exec P true s ls' = some s')
    (hb : ∀ x ∈ s.insts, x.phase ≠ .finished) (he : ∃ x ∈ s'.insts, x.phase = .finished) (i : DataInfo) (is : List DataInfo)
    (hi : Infos (s :: visited P true s ls') (i :: is)) : Answers i is .panic := by
  have i1 := hinv_any ls (hinv_start _ c now) h
  have i2 := hinv_any ls' i1 h'
  obtain ⟨a, ha, hae⟩ := infos_mem hi (s := s) List.mem_cons_self
  obtain ⟨b, hbm, hbe⟩ := infos_mem hi (visited_last ls' h')
  refine (C119_exact i is).2 ⟨a, ha, b, hbm, .inr ?_⟩
  rw [(info_fields hae).2.1, (info_fields hbe).2.1]
  rcases i1.dt with ⟨h1, _⟩ | ⟨_, _, y, hy, hyp⟩
  · rcases i2.dt with ⟨_, _, _, h2⟩ | ⟨h2, _⟩
    · obtain ⟨x, hx, hxp⟩ := he
      exact absurd hxp (h2 x hx)
    · rw [h1, h2]; simp
  · exact absurd hyp (hb y hy)

/-- C119.  If all inserts carry vectors of one length, and the data set is counted as not empty all the time while the request is
served, it reads no memory that is not its own. -/
theorem C119_uniform_partial (d : Nat) (P : PEnv) (c : DataConfig) (now : Int64) (ls ls' : List Proc.Label) (s : PS)
    (hl : ∀ l ∈ ls ++ ls', Idx.GoodLabel d l) (h : Proc.exec P true (initial (Data.newData c) now) ls = some s)
    (i : DataInfo) (is : List DataInfo) (hi : Infos (s :: visited P true s ls') (i :: is)) (hn : ∀ x ∈ i :: is, x.n ≠ 0) :
    ¬ Answers i is .panic := by
  rw [C119_exact]
  have key : ∀ x ∈ i :: is, x.avg.length = d ∧ x.hist.length = 64 := by
    intro x hx
    obtain ⟨t, ht, hte⟩ := mem_infos hi hx
    obtain ⟨l2, hp, h2⟩ := visited_exec ls' ht
    have hf := hinv_fits (ls ++ l2) (uinv_start d c now) (hinv_start (Fits d) c now) (fun l hm => hl l (by
      rcases List.mem_append.1 hm with hm | hm
      · exact List.mem_append.2 (.inl hm)
      · exact List.mem_append.2 (.inr (hp.subset hm)))) (exec_append' ls l2 h h2)
    obtain ⟨e1, e2, e3, _⟩ := info_fields hte
    have hn' := hn x hx
    rw [e3] at hn'
    rw [e1, e2]
    rcases hf.dt with ⟨_, _, h3, _⟩ | ⟨h3, h4, _⟩
    · exact absurd h3 hn'
    · rcases h4 with h4 | ⟨_, h4⟩
      · exact ⟨h4, h3⟩
      · exact absurd h4 hn'
  rintro ⟨a, ha, b, hb, hlt⟩
  have := key a ha
  have := key b hb
  omega

/-! ### Examples -/

namespace Race

/-- A run over one datum, up to its end. -/
def exBefore : List Proc.Label := (exFirst ["a"] 0).take 5

/-- A second datum, and a second run an hour later, up to its end. -/
def exSecond : List Proc.Label :=
  exFirst ["a"] 0 ++ [.write (exD 2 2) (some ⟨0, 0⟩), .tick 4600, .run (fun _ => some exInfo) ["a"], .act 1 (.meet (exK 1)), .act 1 (.offer 0),
    .act 1 (.meet (exK 2)), .act 1 (.offer 0)]

/-- What the information of the two moments is. -/
def exWindow (ls ls' : List Proc.Label) : Option (List (Option DataInfo)) :=
  (Proc.exec softP true (exStart 0) ls).map fun s => (s :: visited softP true s ls').map fun t =>
    match t.dt.getDataInfo with
    | .ok i => some i
    | _ => none

theorem window_infos {ls ls' : List Proc.Label} {is : List DataInfo} (h : exWindow ls ls' = some (is.map some)) :
    ∃ s, Proc.exec softP true (exStart 0) ls = some s ∧ Infos (s :: visited softP true s ls') is := by
  unfold exWindow at h
  rw [Option.map_eq_some_iff] at h
  obtain ⟨s, hs, h⟩ := h
  refine ⟨s, hs, ?_⟩
  unfold Infos
  generalize s :: visited softP true s ls' = l at h
  clear hs
  induction l generalizing is with
  | nil => cases is with | nil => rfl | cons => cases h
  | cons t l ih =>
    cases is with
    | nil => cases h
    | cons i is =>
      simp only [List.map_cons, List.cons.injEq] at h ⊢
      refine ⟨?_, ih h.2⟩
      have := h.1
      split at this
      · rename_i hh; cases this; exact hh
      · cases this

/-- The information before the first run has ended, after it, and after the second one. -/
def exI0 : DataInfo := ⟨"example", 0, 0, [], [], 0, 0, 1000, 0, false, 0, false, 0⟩
def exI1 : DataInfo := ⟨"example", 1000, 0, [0x3F800000], List.replicate 64 0, 1, 0, 1000, 0, false, 0, false, 0⟩
def exI2 : DataInfo := ⟨"example", 4600, 0, [0x40000000], List.replicate 64 0, 2, 0, 1000, 0, false, 0, false, 0⟩

theorem ex_first : exWindow exBefore [.act 0 .endScan] = some ([exI0, exI1].map some) := by decide +kernel

theorem ex_second : exWindow exSecond [.act 1 .endScan] = some ([exI1, exI2].map some) := by decide +kernel

theorem ex_exec {ls ls' : List Proc.Label} {s : PS} (h : Proc.exec softP true (exStart 0) ls = some s)
    (h' : (Proc.exec softP true (exStart 0) (ls ++ ls')).isSome = true) : ∃ s', Proc.exec softP true s ls' = some s' := by
  have : ∀ (ls : List Proc.Label) (s0 : PS), Proc.exec softP true s0 ls = some s →
      Proc.exec softP true s0 (ls ++ ls') = Proc.exec softP true s ls' := by
    intro ls
    induction ls with
    | nil => intro s0 h; simp only [Proc.exec, Option.some.injEq] at h; rw [h]; rfl
    | cons l ls ih =>
      intro s0 h
      simp only [Proc.exec, List.cons_append] at h ⊢
      cases hs : Proc.step softP true s0 l with
      | none => simp [hs] at h
      | some t => rw [hs] at h; exact ih t h
  rw [this ls _ h] at h'
  exact Option.isSome_iff_exists.1 h'

end Race

/-- C118 fails: the average of one datum is reported as that of two. -/
theorem C118_one_moment_fails : ¬ C118_one_moment_statement := by
  intro h
  obtain ⟨s, hs, hi⟩ := window_infos ex_second
  obtain ⟨s', hs'⟩ := ex_exec (ls' := [.act 1 .endScan]) hs (by decide +kernel)
  have hm := h softP (exCfg 0) 1000 exSecond [.act 1 .endScan] s s' hs hs' exI1 [exI2] hi { exI2 with avg := exI1.avg }
    ((C118_exact _ _ _).2 ⟨⟨exI1, by simp, exI1, by simp, Nat.le_refl _, rfl⟩, ⟨exI2, by simp, exI2, by simp, Nat.le_refl _, rfl⟩,
      ⟨exI2, by simp, rfl⟩, ⟨exI2, by simp, rfl⟩, ⟨exI2, by simp, rfl⟩, ⟨exI2, by simp, rfl⟩, ⟨exI2, by simp, rfl⟩,
      ⟨exI2, by simp, rfl⟩, ⟨exI2, by simp, rfl⟩, ⟨exI2, by simp, rfl⟩, rfl, rfl, rfl⟩)
  exact absurd hm (by decide)

/-- C118_quiet_partial is not empty: a request while nothing ends is answered with what holds. -/
theorem C118_example : ∃ s, Proc.exec softP true (exStart 0) exSecond = some s ∧
    Infos (s :: visited softP true s [.tick 4601]) [exI1, exI1] ∧ (∃ out, Answers exI1 [exI1] out) ∧
    ∀ out, Answers exI1 [exI1] out → out = .ok exI1 := by
  have ht : exWindow exSecond [.tick 4601] = some ([exI1, exI1].map some) := by decide +kernel
  obtain ⟨s, hs, hi⟩ := window_infos ht
  refine ⟨s, hs, hi, ⟨.ok exI1, ?_⟩, fun out => C118_quiet_partial exI1 [exI1] (by simp) ⟨rfl, rfl, rfl⟩ out⟩
  refine (C118_exact _ _ _).2 ⟨⟨exI1, by simp, exI1, by simp, Nat.le_refl _, rfl⟩, ⟨exI1, by simp, exI1, by simp, Nat.le_refl _, rfl⟩,
      ⟨exI1, by simp, rfl⟩, ⟨exI1, by simp, rfl⟩, ⟨exI1, by simp, rfl⟩, ⟨exI1, by simp, rfl⟩, ⟨exI1, by simp, rfl⟩,
      ⟨exI1, by simp, rfl⟩, ⟨exI1, by simp, rfl⟩, ⟨exI1, by simp, rfl⟩, rfl, rfl, rfl⟩

/-- C119 fails: one datum, and the end of its first run. -/
theorem C119_memory_fails : ¬ C119_memory_statement := by
  intro h
  obtain ⟨s, hs, hi⟩ := window_infos ex_first
  obtain ⟨s', hs'⟩ := ex_exec (ls' := [.act 0 .endScan]) hs (by decide +kernel)
  exact h softP (exCfg 0) 1000 exBefore [.act 0 .endScan] s s' hs hs' exI0 [exI1] hi
    ((C119_exact _ _).2 ⟨exI0, by simp, exI1, by simp, .inl (by decide)⟩)

/-- C119_uniform_partial is not empty: the end of the second run. -/
theorem C119_example : (∀ l ∈ exSecond ++ [Proc.Label.act 1 .endScan], Idx.GoodLabel 1 l) ∧
    ∃ s, Proc.exec softP true (exStart 0) exSecond = some s ∧ Infos (s :: visited softP true s [.act 1 .endScan]) [exI1, exI2] ∧
      ∀ x ∈ [exI1, exI2], x.n ≠ 0 := by
  refine ⟨?_, ?_⟩
  · intro l hl
    simp only [exSecond, exFirst, List.mem_append, List.mem_cons, List.not_mem_nil, or_false] at hl
    rcases hl with ((rfl | rfl | rfl | rfl | rfl | rfl) | (rfl | rfl | rfl | rfl | rfl | rfl | rfl)) | rfl <;> try exact trivial
    all_goals exact ⟨_, _, rfl, rfl⟩
  · obtain ⟨s, hs, hi⟩ := window_infos ex_second
    exact ⟨s, hs, hi, by decide⟩

end Veri
