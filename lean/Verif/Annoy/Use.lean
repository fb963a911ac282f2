import Verif.Annoy.Props
import Verif.Index.Bounds
/-
C116: searches through the native index, from the inserts to the results.
-/
set_option autoImplicit false
namespace Veri
namespace Idx
open Gencoder Proc Store Annoy

/-- annoyindex/annoylib.h:907-931: what `AddItem` has stored when the index is built: vectors of the dimension of the first one added, at
positions 0, 1, ...; the latest one for a position added twice.  `none`: a vector was read past its end, or a position left out. -/
def vectors (items : List (Nat × List F32)) : Option (Nat × List (List F32)) :=
  (dimension items).bind fun f =>
  ((List.range (items.foldl (fun m it => max m (it.1 + 1)) 0)).mapM fun j => (items.lookup j).bind (readVector f)).map fun vs => (f, vs)

/-- data/newsync.go:172-205: the native index of a run. -/
def native (A : Lib) (fuel : Nat) (items : List (Nat × List F32)) : Out Index :=
  (Out.ofOption (vectors items)).bind fun (f, vs) => build A f fuel vs

/-- data/search.go:318: the positions it answers; `n` is the length of the slice, the limit is passed as `search_k`. -/
def nativeAnswer (A : Lib) (fuel : Nat) (ix : Index) (n : Nat) (q : List F32) (limit : UInt32) : Out (List Nat) :=
  (Out.ofOption (readVector ix.f q)).bind fun v => (getAllNns A fuel ix v n limit).bind fun ans => .ok (ans.map Prod.snd)

/-- A datum with a value and a vector of length `n`. -/
def Good (n : Nat) (d : Datum) : Prop := ∃ k v, d = ⟨some k, some v⟩ ∧ k.feature.length = n

/-- The slots of a run are filled from position 0 on without a gap. -/
def Filled (n : Nat) (i : Inst) (m : Nat) : Prop :=
  m ≤ i.size ∧ (∀ p, (∃ d, (p, d) ∈ i.slots) ↔ p < m) ∧ (∀ p ∈ i.slots, Good n p.2) ∧ 1000 ≤ i.size ∧ i.size < 2^63

/-- Inserts of good data only. -/
def GoodLabel (n : Nat) : Proc.Label → Prop
  | .write d _ => Good n d
  | _ => True

structure UInv (n : Nat) (s : PS) : Prop where
  init : s.dt.initialized = true
  store : ∀ p ∈ s.dt.dbMap, Good n p.2.datum
  slots : ∀ i ∈ s.insts, ∃ m, Filled n i m ∧ (s.dt.alive = true → i.stats.n.toNat = m ∨ m = i.size)
  index : ∀ a, s.dt.annoyer = some a → ∃ i m, Filled n i m ∧ 0 < m ∧ a = ⟨dataIndex i, indexItems i⟩

theorem filled_meet {n : Nat} {P : PEnv} {dt : Data} {i : Inst} {e : Entry} {k : DatumKey} {seen : List Bytes} {m : Nat}
    (h : Filled n i m) (ha : dt.alive = true → i.stats.n.toNat = m ∨ m = i.size) (he : Good n e.datum) :
    ∃ m', Filled n { meetEntry P dt i e k with seen := seen } m' ∧
      (dt.alive = true → (meetEntry P dt i e k).stats.n.toNat = m' ∨ m' = i.size) := by
  obtain ⟨h1, h2, h3, h4, h5⟩ := h
  have hn : (meetEntry P dt i e k).stats.n = i.stats.n + 1 := rfl
  by_cases hc : (dt.alive && decide (i.stats.n.toNat < i.size)) = true
  · have hs : (meetEntry P dt i e k).slots = (i.stats.n.toNat, e.datum) :: i.slots := by simp only [meetEntry]; rw [if_pos hc]
    simp only [Bool.and_eq_true, decide_eq_true_eq] at hc
    have hn1 : (i.stats.n + 1).toNat = i.stats.n.toNat + 1 := by
      rw [UInt64.toNat_add]
      show (i.stats.n.toNat + 1) % 2^64 = _
      omega
    have hgood : ∀ p ∈ (i.stats.n.toNat, e.datum) :: i.slots, Good n p.2 := by
      intro p hp
      rcases List.mem_cons.1 hp with rfl | hp
      · exact he
      · exact h3 p hp
    have hmem : ∀ p, (∃ d, (p, d) ∈ (i.stats.n.toNat, e.datum) :: i.slots) ↔ p = i.stats.n.toNat ∨ p < m := by
      intro p
      rw [← h2]
      constructor
      · rintro ⟨d, hd⟩
        rcases List.mem_cons.1 hd with he | hd
        · cases he; exact .inl rfl
        · exact .inr ⟨d, hd⟩
      · rintro (rfl | ⟨d, hd⟩)
        · exact ⟨_, List.mem_cons_self⟩
        · exact ⟨d, List.mem_cons_of_mem _ hd⟩
    rcases ha hc.1 with hm | hm
    · refine ⟨m + 1, ⟨show m + 1 ≤ i.size by omega, ?_, ?_, h4, h5⟩, fun _ => .inl (by rw [hn, hn1, hm])⟩
      · intro p; simp only [hs]; rw [hmem]; omega
      · simp only [hs]; exact hgood
    · refine ⟨m, ⟨h1, ?_, ?_, h4, h5⟩, fun _ => .inr hm⟩
      · intro p; simp only [hs]; rw [hmem]; omega
      · simp only [hs]; exact hgood
  · have hs : (meetEntry P dt i e k).slots = i.slots := by simp only [meetEntry]; rw [if_neg hc]
    refine ⟨m, ⟨h1, ?_, ?_, h4, h5⟩, fun hal => .inr ?_⟩
    · simp only [hs]; exact h2
    · simp only [hs]; exact h3
    · simp only [hal, Bool.true_and, decide_eq_true_eq] at hc
      rcases ha hal with hm | hm <;> omega

theorem uinv_step {n : Nat} {P : PEnv} {W : Bool} {s s' : PS} {l : Proc.Label} (h : UInv n s) (hl : GoodLabel n l)
    (hs : SStep P W s l s') : UInv n s' := by
  have hid : s.dt.initData = s.dt := Data.initData_of_initialized h.init
  obtain ⟨hini, halive, _⟩ := sstep_alive hs h.init
  have hfresh : ∀ i : Inst, i.slots = [] → i.stats.n = 0 → 1000 ≤ i.size ∧ i.size < 2^63 → ∀ x ∈ s.insts ++ [i],
      ∃ m, Filled n x m ∧ (s.dt.alive = true → x.stats.n.toNat = m ∨ m = x.size) := by
    intro i h0 hn hsz x hx
    rcases List.mem_append.1 hx with hx | hx
    · exact h.slots x hx
    · rw [List.mem_singleton.1 hx]
      exact ⟨0, ⟨by omega, by simp [h0], by simp [h0], hsz⟩, fun _ => .inl (by rw [hn]; rfl)⟩
  have hkeep : ∀ {b : Bool}, (b = true → s.dt.alive = true) → ∀ i ∈ s.insts,
      ∃ m, Filled n i m ∧ (b = true → i.stats.n.toNat = m ∨ m = i.size) := by
    intro b hb i hi
    obtain ⟨m, h1, h2⟩ := h.slots i hi
    exact ⟨m, h1, fun hh => h2 (hb hh)⟩
  cases hs with
  | setSources => exact ⟨hini, by rw [hid]; exact h.store, by rw [hid]; exact h.slots, by rw [hid]; exact h.index⟩
  | run _ hf => exact ⟨hini, h.store, hfresh _ hf.slots (by rw [hf.stats]; rfl) hf.size, h.index⟩
  | closeRun _ _ _ hf => exact ⟨hini, h.store, hfresh _ hf.slots (by rw [hf.stats]; rfl) hf.size, h.index⟩
  | @act j i i' a dt' acks hj hist =>
    have hmem := List.mem_of_getElem? hj
    have hset : ∀ {b : Bool}, (b = true → s.dt.alive = true) →
        (∃ m, Filled n i' m ∧ (b = true → i'.stats.n.toNat = m ∨ m = i'.size)) → ∀ x ∈ s.insts.set j i',
        ∃ m, Filled n x m ∧ (b = true → x.stats.n.toNat = m ∨ m = x.size) := by
      intro b hb hh x hx
      rcases mem_set_list hx with rfl | hx
      · exact hh
      · exact hkeep hb x hx
    have hsame := h.slots i hmem
    cases hist with
    | @meet k e key hp he hns hx hk =>
      obtain ⟨m, h1, h2⟩ := hsame
      exact ⟨hini, h.store, hset id (filled_meet h1 h2 (h.store (k, e) (AMap.mem_of_get? he))), h.index⟩
    | endScan hp hall =>
      refine ⟨hini, h.store, hset id hsame, ?_⟩
      intro a ha
      simp only [finish] at ha
      split at ha
      · exact h.index a ha
      · rename_i hne
        cases ha
        obtain ⟨m, h1, _⟩ := hsame
        refine ⟨i, m, h1, ?_, rfl⟩
        cases hsl : i.slots with
        | nil => rw [hsl] at hne; exact absurd rfl hne
        | cons p ps =>
          have := (h1.2.1 p.1).1 ⟨p.2, by rw [hsl]; exact List.mem_cons_self⟩
          omega
    | purge =>
      exact ⟨hini, fun p hp => h.store p ((AMap.mem_erase _ _ _).1 hp).1, hset id hsame, h.index⟩
    | evict =>
      exact ⟨hini, fun p hp => h.store p ((AMap.mem_erase _ _ _).1 hp).1, hset id hsame, h.index⟩
    | _ => exact ⟨hini, h.store, hset id hsame, h.index⟩
  | @write datum config out hW ho =>
    rcases Data.insert_cases _ _ _ _ _ _ _ _ ho with ⟨_, rfl⟩ | ⟨_, d, _, m, b, hdd, _, hm, hd, _⟩
    · exact ⟨hini, h.store, h.slots, h.index⟩
    · cases hdd
      refine ⟨hini, ?_, hkeep halive, ?_⟩
      · simp only [hd]
        rcases insertBDMap_shape hm with ⟨rfl, _⟩ | ⟨k, hk, rfl, _⟩
        · exact h.store
        · intro p hp
          rcases (AMap.mem_set _ _ _ _).1 hp with rfl | hp
          · exact hl
          · exact h.store p hp.1
      · intro a ha
        simp only [hd, hid] at ha
        exact h.index a ha
  | @delete datum dt' hW ho =>
    obtain ⟨m, hd⟩ := delete_frame ho
    refine ⟨hini, ?_, hkeep halive, ?_⟩
    · have hm : ∃ k, dt'.dbMap = s.dt.dbMap.erase k := by
        unfold Data.delete deleteBDMap at ho
        simp only [Res.ofOption_some, Res.bind_eq, Res.bind_ok, Res.pure_eq] at ho
        cases hk : getKeyAsBytes datum with
        | none => rw [hk] at ho; cases ho
        | some k => rw [hk] at ho; cases ho; exact ⟨k, rfl⟩
      obtain ⟨k, hk⟩ := hm
      intro p hp
      simp only [hk] at hp
      exact h.store p ((AMap.mem_erase _ _ _).1 hp).1
    · intro a ha
      simp only [hd] at ha
      exact h.index a ha
  | _ => exact ⟨hini, h.store, hkeep halive, h.index⟩

theorem uinv_exec {n : Nat} {P : PEnv} {W : Bool} : ∀ (ls : List Proc.Label) {s s' : PS}, UInv n s → (∀ l ∈ ls, GoodLabel n l) →
    Proc.exec P W s ls = some s' → UInv n s' := by
  intro ls
  induction ls with
  | nil => intro s s' h _ he; simp only [Proc.exec, Option.some.injEq] at he; exact he ▸ h
  | cons l ls ih =>
    intro s s' h hl he
    simp only [Proc.exec] at he
    cases hs : Proc.step P W s l with
    | none => simp [hs] at he
    | some t =>
      rw [hs] at he
      exact ih (uinv_step h (hl l List.mem_cons_self) (sstep_of hs)) (fun l h => hl l (List.mem_cons_of_mem _ h)) he

theorem readVector_self (v : List F32) : readVector v.length v = some v := by
  induction v with
  | nil => rfl
  | cons x v ih => simp [readVector, ih]

theorem readVector_take : ∀ (f : Nat) (v : List F32), f ≤ v.length → readVector f v = some (v.take f)
  | 0, v, _ => by simp [readVector]
  | f + 1, [], h => by simp at h
  | f + 1, x :: v, h => by
    rw [List.length_cons] at h
    simp [readVector, readVector_take f v (by omega)]

theorem foldl_max (l : List (Nat × List F32)) (b : Nat) :
    b ≤ l.foldl (fun m it => max m (it.1 + 1)) b ∧ (∀ it ∈ l, it.1 < l.foldl (fun m it => max m (it.1 + 1)) b) ∧
    (l.foldl (fun m it => max m (it.1 + 1)) b = b ∨ ∃ it ∈ l, it.1 + 1 = l.foldl (fun m it => max m (it.1 + 1)) b) := by
  induction l generalizing b with
  | nil => exact ⟨Nat.le_refl _, by simp, .inl rfl⟩
  | cons x l ih =>
    simp only [List.foldl_cons]
    obtain ⟨h1, h2, h3⟩ := ih (max b (x.1 + 1))
    refine ⟨by omega, ?_, ?_⟩
    · intro it hit
      rcases List.mem_cons.1 hit with rfl | hit
      · omega
      · exact h2 it hit
    · rcases h3 with h3 | ⟨it, hit, h3⟩
      · rw [h3]
        by_cases hb : x.1 + 1 ≤ b
        · left; omega
        · right; exact ⟨x, List.mem_cons_self, by omega⟩
      · exact .inr ⟨it, List.mem_cons_of_mem _ hit, h3⟩

theorem mapM_some {α β : Type} {g : α → Option β} {h : α → β} : ∀ (l : List α), (∀ x ∈ l, g x = some (h x)) → l.mapM g = some (l.map h)
  | [], _ => rfl
  | x :: l, hl => by
    rw [List.mapM_cons, hl x List.mem_cons_self, mapM_some l fun y hy => hl y (List.mem_cons_of_mem _ hy)]
    rfl

theorem lookup_slots {l : List (Nat × Datum)} {j : Nat} (h : ∃ d, (j, d) ∈ l) : ∃ d, l.lookup j = some d ∧ (j, d) ∈ l := by
  induction l with
  | nil => obtain ⟨d, hd⟩ := h; cases hd
  | cons x l ih =>
    obtain ⟨p, e⟩ := x
    by_cases hj : j = p
    · subst hj; exact ⟨e, by simp [List.lookup], List.mem_cons_self⟩
    · obtain ⟨d, hd⟩ := h
      rcases List.mem_cons.1 hd with he | hd
      · cases he; exact absurd rfl hj
      · obtain ⟨d', h1, h2⟩ := ih ⟨d, hd⟩
        have hb : (j == p) = false := by simpa using hj
        exact ⟨d', by simp only [List.lookup, hb]; exact h1, List.mem_cons_of_mem _ h2⟩

theorem mem_of_lookup {l : List (Nat × Datum)} {j : Nat} {d : Datum} (h : l.lookup j = some d) : (j, d) ∈ l := by
  induction l with
  | nil => cases h
  | cons x l ih =>
    obtain ⟨p, e⟩ := x
    by_cases hj : j = p
    · subst hj
      simp only [List.lookup, beq_self_eq_true, Option.some.injEq] at h
      subst h; exact List.mem_cons_self
    · have hb : (j == p) = false := by simpa using hj
      simp only [List.lookup, hb] at h
      exact List.mem_cons_of_mem _ (ih h)

theorem lookup_items {n : Nat} {l : List (Nat × Datum)} (hg : ∀ p ∈ l, Good n p.2) (j : Nat) :
    (l.filterMap fun s => s.2.key.map fun k => (s.1, k.feature)).lookup j =
      (l.lookup j).bind fun d => d.key.map (·.feature) := by
  induction l with
  | nil => rfl
  | cons x l ih =>
    obtain ⟨p, e⟩ := x
    obtain ⟨k, v, he, _⟩ := hg (p, e) List.mem_cons_self
    simp only at he
    subst he
    have ih := ih fun p hp => hg p (List.mem_cons_of_mem _ hp)
    by_cases hj : j = p
    · subst hj; simp [List.lookup]
    · have hb : (j == p) = false := by simpa using hj
      simp only [List.filterMap_cons, Option.map_some, List.lookup, hb]
      exact ih

/-- The vectors the index of a run is built from. -/
theorem vectors_filled {n m : Nat} {i : Inst} (h : Filled n i m) (hm : 0 < m) :
    ∃ vs, vectors (indexItems i) = some (n, vs) ∧ vs.length = m ∧ (dataIndex i).length = i.size ∧
      (∀ d, some d ∈ dataIndex i → Good n d) ∧ (∀ (j : Nat) (d : Datum), (dataIndex i)[j]? = some (some d) → j < m) ∧
      ∀ (j : Nat) (y : List F32), vs[j]? = some y → y.length = n ∧
        ∃ k v, (dataIndex i)[j]? = some (some ⟨some k, some v⟩) ∧ k.feature = y := by
  obtain ⟨h1, h2, h3, _, _⟩ := h
  have hdat : ∀ j, j < m → ∃ k v, i.slots.lookup j = some ⟨some k, some v⟩ ∧ k.feature.length = n := by
    intro j hj
    obtain ⟨d, hd, hmem⟩ := lookup_slots ((h2 j).2 hj)
    obtain ⟨k, v, he, hk⟩ := h3 _ hmem
    simp only at he
    exact ⟨k, v, by rw [hd, he], hk⟩
  have hitem : ∀ it ∈ indexItems i, it.1 < m ∧ it.2.length = n := by
    intro it hit
    simp only [indexItems, List.mem_filterMap, Option.map_eq_some_iff] at hit
    obtain ⟨p, hp, k, hk, rfl⟩ := hit
    obtain ⟨k', v, he, hk'⟩ := h3 p hp
    rw [he] at hk
    cases hk
    exact ⟨(h2 p.1).1 ⟨p.2, hp⟩, hk'⟩
  have hpos : ∀ j, j < m → ∃ it ∈ indexItems i, it.1 = j := by
    intro j hj
    obtain ⟨d, hd⟩ := (h2 j).2 hj
    obtain ⟨k, v, he, _⟩ := h3 _ hd
    simp only at he
    refine ⟨(j, k.feature), ?_, rfl⟩
    simp only [indexItems, List.mem_filterMap, Option.map_eq_some_iff]
    exact ⟨(j, d), hd, k, by rw [he], rfl⟩
  have hcount : (indexItems i).foldl (fun m it => max m (it.1 + 1)) 0 = m := by
    obtain ⟨_, g2, g3⟩ := foldl_max (indexItems i) 0
    obtain ⟨it, hit, he⟩ := hpos (m - 1) (by omega)
    have := g2 it hit
    rcases g3 with g3 | ⟨it', hit', g3⟩
    · omega
    · have := (hitem it' hit').1; omega
  have hdim : dimension (indexItems i) = some n := by
    unfold dimension
    cases hl : (indexItems i).getLast? with
    | none =>
      obtain ⟨it, hit, _⟩ := hpos 0 hm
      rw [List.getLast?_eq_none_iff.1 hl] at hit
      cases hit
    | some it =>
      rw [Option.map_some, (hitem it (List.mem_of_getLast? hl)).2]
  let vec : Nat → List F32 := fun j => (((i.slots.lookup j).bind fun d => d.key.map (·.feature)).getD [])
  have hv : ∀ j, j < m → ((indexItems i).lookup j).bind (readVector n) = some (vec j) := by
    intro j hj
    obtain ⟨k, v, he, hk⟩ := hdat j hj
    rw [indexItems, lookup_items h3 j, he]
    simp only [Option.bind_some, Option.map_some, vec, he, Option.getD_some, ← hk, readVector_self]
  refine ⟨(List.range m).map vec, ?_, by simp, by simp [dataIndex], ?_, ?_, ?_⟩
  · unfold vectors
    rw [hdim, Option.bind_some, hcount, mapM_some (h := vec) _ fun j hj => hv j (List.mem_range.1 hj)]
    rfl
  · intro d hd
    simp only [dataIndex, List.mem_map, List.mem_range] at hd
    obtain ⟨j, hj, hd⟩ := hd
    exact h3 (j, d) (mem_of_lookup hd)
  · intro j d hd
    simp only [dataIndex, List.getElem?_map, Option.map_eq_some_iff] at hd
    obtain ⟨j', hj', hd⟩ := hd
    obtain ⟨hlt, hje⟩ := List.getElem?_eq_some_iff.1 hj'
    rw [List.getElem_range] at hje
    subst hje
    exact (h2 j).1 ⟨d, mem_of_lookup hd⟩
  · intro j y hy
    rw [List.getElem?_map, Option.map_eq_some_iff] at hy
    obtain ⟨j', hj', rfl⟩ := hy
    obtain ⟨hlt, hje⟩ := List.getElem?_eq_some_iff.1 hj'
    rw [List.getElem_range] at hje
    subst hje
    rw [List.length_range] at hlt
    obtain ⟨k, v, he, hk⟩ := hdat j hlt
    refine ⟨by simp only [vec, he, Option.bind_some, Option.map_some, Option.getD_some]; exact hk, k, v, ?_, ?_⟩
    · simp only [dataIndex, List.getElem?_map]
      rw [List.getElem?_range (by omega), Option.map_some, he]
    · simp only [vec, he, Option.bind_some, Option.map_some, Option.getD_some]

/-- The datum at a position of the slice. -/
def datumAt (a : Annoyer) (j : Nat) : Option Datum := (a.dataIndex[j]?).join

/-- The distance of the query to the vector at a position, as the index has it. -/
def distAt (A : Lib) (a : Annoyer) (q : List F32) (j : Nat) : F32 :=
  angular A q (((datumAt a j).bind fun d => d.key.map (·.feature)).getD [])

/-- `out` is a proper result of an index search for `q`: data of the slice, from the positions `js`, each once, with their scores; they
pass the filters, there are at most `limit`; nearest first, unless some distance is NaN. -/
structure Result (A : Lib) (E : Env) (a : Annoyer) (q : DatumKey) (config : SearchConfig) (js : List Nat) (out : List ScoredDatum) :
    Prop where
  once : js.Nodup
  bound : js.length ≤ config.limit.toNat
  data : out.map some = js.map fun j => (datumAt a j).map fun d =>
    ⟨(Vec.getVectorComparisonFunction config.scoreFuncName).eval E.o q.feature ((d.key.map (·.feature)).getD []), d⟩
  pass : ∀ j ∈ js, ∃ d, datumAt a j = some d ∧ Ref.Passes E.jsonHas config d
  sorted : (∀ j d, datumAt a j = some d → F32.isNaN (distAt A a q.feature j) = false) →
    js.Pairwise fun i j => F32.lt (distAt A a q.feature i) (distAt A a q.feature j) = true ∨
      (F32.lt (distAt A a q.feature j) (distAt A a q.feature i) = false ∧ i < j)

end Idx

open Gencoder Proc Store Annoy Idx

/-! ### C116 -/

/-- C116, full statement: if all inserts carry keys and values, building the native index of a data set does not crash, and no search
of it does.  FALSE of the code: vectors may be too short (C103). -/
def C116_index_search_statement : Prop :=
  ∀ (P : PEnv) (c : DataConfig) (now : Int64) (ls : List Proc.Label),
    (∀ l ∈ ls, ∀ d config, l = .write d config → ∃ k v, d = ⟨some k, some v⟩) →
    ∀ s, Proc.exec P true (initial (Data.newData c) now) ls = some s → ∀ a, s.dt.annoyer = some a → a.dataIndex.length < 2^31 →
    ∀ (A : Lib), A.Ok → ∀ (fuel : Nat), Idx.native A fuel a.items ≠ .crash ∧
      ∀ ix, Idx.native A fuel a.items = .ok ix → ∀ (fuel' : Nat) (q : DatumKey) (limit : UInt32),
        Idx.nativeAnswer A fuel' ix a.dataIndex.length q.feature limit ≠ .crash

theorem C116_index_search_fails : ¬ C116_index_search_statement := by
  intro h
  have ht : (Proc.exec softP true (exStart 0) Idx.exMixed).map (fun s => s.dt.annoyer.map fun a =>
      (decide (a.dataIndex.length < 2^31), Idx.native soft 0 a.items)) = some (some (true, .crash)) := by decide +kernel
  simp only [Option.map_eq_some_iff, Prod.mk.injEq, decide_eq_true_eq] at ht
  obtain ⟨s, hs, a, ha, h1, h2⟩ := ht
  refine (h softP _ _ Idx.exMixed ?_ s hs a ha h1 soft soft_ok 0).1 h2
  intro l hl d config hd
  subst hd
  simp only [Idx.exMixed, List.mem_cons, Proc.Label.write.injEq, reduceCtorEq, List.not_mem_nil, or_false, false_or] at hl
  rcases hl with hl | hl
  · exact ⟨_, _, hl.1⟩
  · exact ⟨_, _, hl.1⟩

open Classical in
/-- C116.  If all inserts carry a value and vectors of one length `n`, then whatever else happens: building the native index of a data
set does not crash; on the index built, a search with a query vector of that length ends without a crash and returns a proper result.
(C103 tells what happens with other vectors.)  Any arithmetic; the slice has fewer than `2^31` elements. -/
theorem C116_index_search_partial (n : Nat) (P : PEnv) (c : DataConfig) (now : Int64) (ls : List Proc.Label)
    (hl : ∀ l ∈ ls, Idx.GoodLabel n l) (s : PS) (he : Proc.exec P true (initial (Data.newData c) now) ls = some s)
    (a : Annoyer) (ha : s.dt.annoyer = some a) (hsz : a.dataIndex.length < 2^31) (A : Lib) (hA : A.Ok) (fuel : Nat) :
    Idx.native A fuel a.items ≠ .crash ∧
    ∀ ix, Idx.native A fuel a.items = .ok ix →
      ∀ (E : Env) (vs : List Visit) (q : DatumKey) (qv : Option DatumValue) (config : SearchConfig), q.feature.length = n →
      ∃ answer, (∀ fuel' ≥ 2 * ix.nItems * ix.roots.length, Idx.nativeAnswer A fuel' ix a.dataIndex.length q.feature config.limit = .ok answer) ∧
      ∃ out js, Search.searchAnnoy E vs answer s.dt ⟨some q, qv⟩ (some config) = .ok (s.dt, out) ∧
        Idx.Result A E a q config js out.list ∧
        js = (answer.filter fun j => decide (∃ d, Idx.datumAt a j = some d ∧ Ref.Passes E.jsonHas config d)).take config.limit.toNat ∧
        -- few items: nothing is missed
        (ix.nItems ≤ n + 2 → 0 < config.limit.toNat → config.limit.toNat < 2^31 → ∀ j d, Idx.datumAt a j = some d →
          Ref.Passes E.jsonHas config d → j ∈ js ∨ (js.length = config.limit.toNat ∧
            ((∀ j d, Idx.datumAt a j = some d → F32.isNaN (Idx.distAt A a q.feature j) = false) →
              ∀ i ∈ js, F32.lt (Idx.distAt A a q.feature j) (Idx.distAt A a q.feature i) = false))) := by
  have hu := Idx.uinv_exec (n := n) ls (s := initial (Data.newData c) now)
    ⟨rfl, (by intro p hp; cases hp), (by intro i hi; cases hi), (by intro a ha; cases ha)⟩ hl he
  obtain ⟨i, m, hf, hm, rfl⟩ := hu.index a ha
  obtain ⟨ys, hvec, hlen, hdl, hgood, hlt, hat⟩ := Idx.vectors_filled hf hm
  have hmax : ys.length < 2^31 := by
    have := hf.1
    simp only at hsz
    rw [hdl] at hsz; omega
  have hnat : Idx.native A fuel (indexItems i) = build A n fuel ys := by
    unfold Idx.native; rw [hvec]; rfl
  rw [hnat]
  refine ⟨(C112_answers A hA n fuel ys hmax).1, ?_⟩
  intro ix hix E vs q qv config hq
  obtain ⟨ans, h1, h2, h3, h4, h5, h6⟩ := answer hA hmax hix q.feature (dataIndex i).length config.limit
  obtain ⟨hixf, hixn, _⟩ := (build_spec hA (f := n) (fuel := fuel) hmax).2 ix hix
  refine ⟨ans.map Prod.snd, fun fuel' hfl => ?_, ?_⟩
  · unfold Idx.nativeAnswer
    rw [hixf, ← hq, Idx.readVector_self]
    simp only [Out.ofOption, Out.ok_bind]
    rw [hixn] at hfl
    rw [h1 fuel' hfl, Out.ok_bind]
  -- the data at the answered positions
  have hdat : ∀ x ∈ ans, ∃ k v, (dataIndex i)[x.2]? = some (some ⟨some k, some v⟩) ∧ x.1 = angular A q.feature k.feature := by
    intro x hx
    obtain ⟨y, hy, hd⟩ := h2.dist x hx
    obtain ⟨_, k, v, hkv, hky⟩ := hat x.2 y hy
    exact ⟨k, v, hkv, by rw [hky]; exact hd⟩
  have hne : (dataIndex i) ≠ [] := by
    intro h0
    have := hf.2.2.2.1
    rw [h0] at hdl
    simp only [List.length_nil] at hdl
    omega
  obtain ⟨out, ho1, ho2⟩ := C25_index_search E vs (ans.map Prod.snd) s.dt q qv config ⟨dataIndex i, indexItems i⟩ ha hne
    (fun d hd => by obtain ⟨k, v, h, _⟩ := hgood d hd; exact ⟨k, v, h⟩)
    (fun r hr => by
      obtain ⟨x, hx, rfl⟩ := List.mem_map.1 hr
      obtain ⟨k, v, h, _⟩ := hdat x hx
      exact (List.getElem?_eq_some_iff.1 h).1)
    (fun h0 => by
      rw [h6 (by rw [budget_small (by rw [h0]; decide), h0]; rfl), List.map_nil])
  simp only at ho2
  have hdist : ∀ x ∈ ans, x.1 = Idx.distAt A ⟨dataIndex i, indexItems i⟩ q.feature x.2 := by
    intro x hx
    obtain ⟨k, v, h, he⟩ := hdat x hx
    simp only [Idx.distAt, Idx.datumAt, h, Option.join_some, Option.bind_some, Option.map_some, Option.getD_some]
    exact he
  let pass : Nat → Bool := fun j => decide (∃ d, Idx.datumAt ⟨dataIndex i, indexItems i⟩ j = some d ∧ Ref.Passes E.jsonHas config d)
  let js := (((ans.map Prod.snd).filter pass).take config.limit.toNat)
  have hjs : ∀ l : List Nat, (∀ j ∈ l, ∃ d, Idx.datumAt ⟨dataIndex i, indexItems i⟩ j = some d) → ∀ c : Nat,
      ((((l.filterMap fun r => ((dataIndex i)[r]?).join).filter fun d => decide (Ref.Passes E.jsonHas config d)).take c).map some) =
      ((l.filter pass).take c).map fun j => Idx.datumAt ⟨dataIndex i, indexItems i⟩ j := by
    intro l
    induction l with
    | nil => intro _ c; simp
    | cons j l ih =>
      intro hj c
      have ih := ih fun j h => hj j (List.mem_cons_of_mem _ h)
      obtain ⟨d, hd⟩ := hj j List.mem_cons_self
      have hd' : ((dataIndex i)[j]?).join = some d := hd
      by_cases hp : Ref.Passes E.jsonHas config d
      · have hpj : pass j = true := decide_eq_true ⟨d, hd, hp⟩
        rw [List.filterMap_cons, hd', List.filter_cons_of_pos (by simpa using hp), List.filter_cons_of_pos hpj]
        cases c with
        | zero => simp
        | succ c => simp only [List.take_succ_cons, List.map_cons, ih c, hd]
      · have hpj : ¬ pass j = true := by
          simp only [pass, decide_eq_true_eq]
          rintro ⟨d', h, hp'⟩
          rw [hd] at h; cases h; exact hp hp'
        rw [List.filterMap_cons, hd', List.filter_cons_of_neg (by simpa using hp), List.filter_cons_of_neg hpj]
        exact ih c
  have hin : ∀ j ∈ ans.map Prod.snd, ∃ d, Idx.datumAt ⟨dataIndex i, indexItems i⟩ j = some d := by
    intro j hj
    obtain ⟨x, hx, rfl⟩ := List.mem_map.1 hj
    obtain ⟨k, v, h, _⟩ := hdat x hx
    exact ⟨⟨some k, some v⟩, by simp only [Idx.datumAt, h, Option.join_some]⟩
  have hsub : js.Sublist (ans.map Prod.snd) := (List.take_sublist _ _).trans List.filter_sublist
  -- order of the whole answer
  have hord : (∀ j d, Idx.datumAt ⟨dataIndex i, indexItems i⟩ j = some d →
        F32.isNaN (Idx.distAt A ⟨dataIndex i, indexItems i⟩ q.feature j) = false) →
      (ans.map Prod.snd).Pairwise fun a b => F32.lt (Idx.distAt A ⟨dataIndex i, indexItems i⟩ q.feature a)
          (Idx.distAt A ⟨dataIndex i, indexItems i⟩ q.feature b) = true ∨
        (F32.lt (Idx.distAt A ⟨dataIndex i, indexItems i⟩ q.feature b)
          (Idx.distAt A ⟨dataIndex i, indexItems i⟩ q.feature a) = false ∧ a < b) := by
    intro hnan
    have hn : NoNaN A ys q.feature := by
      intro y hy
      obtain ⟨j, hj⟩ := List.getElem?_of_mem hy
      obtain ⟨_, k, v, h, hk⟩ := hat j y hj
      have := hnan j ⟨some k, some v⟩ (by simp only [Idx.datumAt, h, Option.join_some])
      simp only [Idx.distAt, Idx.datumAt, h, Option.join_some, Option.bind_some, Option.map_some, Option.getD_some, hk] at this
      exact this
    rw [List.pairwise_map]
    refine List.Pairwise.imp_of_mem ?_ (h2.sorted hn)
    intro x y hx hy h
    rw [← hdist x hx, ← hdist y hy]
    exact h
  refine ⟨out, js, ho1, ⟨hsub.nodup h2.once, by rw [List.length_take]; omega, ?_, ?_, fun hnan => (hord hnan).sublist hsub⟩, rfl, ?_⟩
  · have := congrArg (List.map fun o : Option Datum => o.map fun d => (⟨(Vec.getVectorComparisonFunction config.scoreFuncName).eval E.o q.feature
      ((d.key.map (·.feature)).getD []), d⟩ : ScoredDatum)) (hjs _ hin config.limit.toNat)
    rw [List.map_map, List.map_map] at this
    rw [ho2, List.map_map]
    exact this
  · intro j hj
    have := (List.mem_filter.1 (List.mem_of_mem_take hj)).2
    exact of_decide_eq_true this
  · intro hfew hpos hbig j d hd hp
    rw [hixn] at hfew
    have hcomp := h5 (by have := hf.1; omega) hfew (by rw [budget_small hbig]; exact hpos)
    have hjm : j < m := hlt j d (by
      simp only [Idx.datumAt] at hd
      cases hg : (dataIndex i)[j]? with
      | none => rw [hg] at hd; cases hd
      | some o => rw [hg] at hd; rw [Option.join_some] at hd; rw [hd])
    have hja : j ∈ (ans.map Prod.snd).filter pass :=
      List.mem_filter.2 ⟨hcomp j (by omega), decide_eq_true ⟨d, hd, hp⟩⟩
    rw [← List.take_append_drop config.limit.toNat ((ans.map Prod.snd).filter pass)] at hja
    rcases List.mem_append.1 hja with h | h
    · exact .inl h
    · right
      refine ⟨?_, fun hnan i hi => ?_⟩
      · have : config.limit.toNat < ((ans.map Prod.snd).filter pass).length := by
          apply Nat.lt_of_not_le
          intro hle
          rw [List.drop_eq_nil_of_le hle] at h
          cases h
        show (List.take _ _).length = _
        rw [List.length_take]; omega
      · have hs := (hord hnan).sublist (List.filter_sublist (p := pass))
        rw [← List.take_append_drop config.limit.toNat ((ans.map Prod.snd).filter pass), List.pairwise_append] at hs
        rcases hs.2.2 i hi j h with h | h
        · simp only [F32.lt, Bool.and_eq_true, decide_eq_true_eq] at h
          simp only [F32.lt, Bool.and_eq_false_iff, decide_eq_false_iff_not]
          omega
        · exact h.1

set_option maxRecDepth 100000 in
/-- C116 is not empty: one insert, a run, and a search through the index that it has built. -/
theorem C116_example : (∀ l ∈ exFirst ["a"] 0, Idx.GoodLabel 1 l) ∧
    (Proc.exec softP true (exStart 0) (exFirst ["a"] 0)).map (fun s => s.dt.annoyer.map fun a =>
      (Idx.native soft 2 a.items).bind fun ix => (Idx.nativeAnswer soft 2 ix a.dataIndex.length [0x3F800000] 1).bind fun answer =>
      .ok (answer, hitsOf (Search.searchAnnoy Search.exEnv [] answer s.dt (exD 1 1) none))) =
      some (some (.ok ([0], some [exD 1 1]))) := by
  constructor
  · intro l hl
    simp only [exFirst, List.mem_cons, List.not_mem_nil, or_false] at hl
    rcases hl with rfl | rfl | rfl | rfl | rfl | rfl <;> try exact trivial
    exact ⟨_, _, rfl, rfl⟩
  · decide +kernel

/-! ### C117 -/

/-- annoyindex/annoygomodule_wrap.cxx:995-1012: the answer of a search is copied to two arrays from `malloc`, of 8 bytes for each
position and 4 for each distance, and these become the slices `result` and `distances` of data/search.go:315-318.  Go does not manage
this memory and nothing in the code frees it; `heap` lists the sizes of the arrays allocated so far. -/
def Idx.searchHeap (A : Lib) (fuel : Nat) (ix : Index) (n : Nat) (heap : List Nat) (q : List F32) (limit : UInt32) : Out (List Nat) :=
  (Idx.nativeAnswer A fuel ix n q limit).bind fun answer => .ok (heap ++ [8 * answer.length, 4 * answer.length])

/-- A number of searches of one index. -/
def Idx.searchesHeap (A : Lib) (fuel : Nat) (ix : Index) (n : Nat) : List Nat → List (List F32 × UInt32) → Out (List Nat)
  | heap, [] => .ok heap
  | heap, (q, limit) :: rest =>
    (Idx.searchHeap A fuel ix n heap q limit).bind fun heap => Idx.searchesHeap A fuel ix n heap rest

/-- C117, full statement: searches of an index take a bounded amount of memory, however many there are.  FALSE of the code. -/
def C117_memory_statement : Prop :=
  ∀ (A : Lib), A.Ok → ∀ (f fuel : Nat) (vs : List (List F32)) (ix : Index), build A f fuel vs = .ok ix → ∀ (n fuel' : Nat),
    ∃ bound, ∀ (searches : List (List F32 × UInt32)) (heap : List Nat), Idx.searchesHeap A fuel' ix n [] searches = .ok heap →
      heap.sum ≤ bound

/-- C117.  Exactly: 12 bytes are lost for every position answered. -/
theorem C117_memory_exact (A : Lib) (fuel : Nat) (ix : Index) (n : Nat) (searches : List (List F32 × UInt32)) (heap heap' : List Nat)
    (h : Idx.searchesHeap A fuel ix n heap searches = .ok heap') :
    ∃ answers : List (List Nat), answers.length = searches.length ∧
      (∀ (j : Nat) (s : List F32 × UInt32) (ans : List Nat), searches[j]? = some s → answers[j]? = some ans →
        Idx.nativeAnswer A fuel ix n s.1 s.2 = .ok ans) ∧
      heap'.sum = heap.sum + 12 * (answers.map List.length).sum := by
  induction searches generalizing heap with
  | nil =>
    cases h
    exact ⟨[], rfl, (by intro j s ans hs; simp at hs), by simp⟩
  | cons x rest ih =>
    obtain ⟨q, limit⟩ := x
    obtain ⟨heap1, h1, h2⟩ := Out.bind_ok h
    obtain ⟨ans, ha, h1⟩ := Out.bind_ok h1
    cases h1
    obtain ⟨answers, hl, hall, hsum⟩ := ih _ h2
    refine ⟨ans :: answers, by simp [hl], ?_, ?_⟩
    · intro j s a hs haj
      cases j with
      | zero => simp at hs haj; subst hs haj; exact ha
      | succ j => simp at hs haj; exact hall j s a hs haj
    · rw [hsum]
      simp only [List.sum_append, List.sum_cons, List.sum_nil, List.map_cons]
      omega

/-- C117.  What a number of searches takes is at most 12 bytes for each of them and each item. -/
theorem C117_memory_partial (A : Lib) (hA : A.Ok) (f fuel : Nat) (vs : List (List F32)) (hmax : vs.length < 2^31) (ix : Index)
    (hb : build A f fuel vs = .ok ix) (n fuel' : Nat) (hfuel : 2 * vs.length * ix.roots.length ≤ fuel')
    (searches : List (List F32 × UInt32)) (heap : List Nat)
    (h : Idx.searchesHeap A fuel' ix n [] searches = .ok heap) : heap.sum ≤ 12 * (searches.length * vs.length) := by
  obtain ⟨answers, hl, hall, hsum⟩ := C117_memory_exact A fuel' ix n searches [] heap h
  have hle : ∀ a ∈ answers, a.length ≤ vs.length := by
    intro a ha
    obtain ⟨j, hj⟩ := List.getElem?_of_mem ha
    have hjl := (List.getElem?_eq_some_iff.1 hj).1
    have := hall j searches[j] a (List.getElem?_eq_getElem (by omega)) hj
    obtain ⟨v, _, hv⟩ := Out.bind_ok this
    obtain ⟨ans, hans, hv⟩ := Out.bind_ok hv
    cases hv
    obtain ⟨ans', h1, h2, _⟩ := answer hA hmax hb v n searches[j].2
    rw [h1 fuel' hfuel] at hans
    cases hans
    rw [List.length_map]
    exact complete_of_length h2
  have hs : ∀ l : List (List Nat), (∀ a ∈ l, a.length ≤ vs.length) → (l.map List.length).sum ≤ l.length * vs.length := by
    intro l
    induction l with
    | nil => intro _; simp
    | cons a l ih =>
      intro hh
      have := ih fun a ha => hh a (List.mem_cons_of_mem _ ha)
      have := hh a List.mem_cons_self
      simp only [List.map_cons, List.sum_cons, List.length_cons, Nat.add_mul]
      omega
  have := hs answers hle
  rw [hsum, ← hl]
  simp only [List.sum_nil]
  omega

/-- One vector, searched for again and again. -/
theorem C117_example : (build soft 1 2 [[0]]).bind (fun ix => (Idx.nativeAnswer soft 2 ix 1000 [0] 1).bind fun a => .ok a) =
    .ok [0] := by decide +kernel

theorem C117_memory_fails : ¬ C117_memory_statement := by
  intro h
  obtain ⟨ix, hb, hx⟩ := Out.bind_ok C117_example
  obtain ⟨ans, ha, hx⟩ := Out.bind_ok hx
  cases hx
  obtain ⟨bound, hB⟩ := h soft soft_ok 1 2 _ ix hb 1000 2
  have hrun : ∀ (k : Nat) (heap : List Nat), ∃ heap', Idx.searchesHeap soft 2 ix 1000 heap (List.replicate k ([0], 1)) = .ok heap' ∧
      heap'.sum = heap.sum + 12 * k := by
    intro k
    induction k with
    | zero => intro heap; exact ⟨heap, rfl, by simp⟩
    | succ k ih =>
      intro heap
      obtain ⟨heap', h1, h2⟩ := ih (heap ++ [8, 4])
      refine ⟨heap', ?_, ?_⟩
      · rw [List.replicate_succ]
        simp only [Idx.searchesHeap, Idx.searchHeap, ha, Out.ok_bind]
        exact h1
      · rw [h2]; simp; omega
  obtain ⟨heap', h1, h2⟩ := hrun (bound + 1) []
  have := hB _ _ h1
  simp only [List.sum_nil] at h2
  omega

end Veri
