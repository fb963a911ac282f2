import Verif.Store.Spec
import Verif.Gencoder.Lemmas
set_option autoImplicit false
namespace Veri.Store
open Gencoder

theorem i64_ge (a : Int64) : -2^63 ≤ a.toInt := a.le_toInt
theorem i64_lt (a : Int64) : a.toInt < 2^63 := a.toInt_lt

theorem closeEnough_iff (a b : Int64) : closeEnough a b = true ↔ Ref.near a b := by
  simp only [closeEnough, Ref.near, Bool.and_eq_true, decide_eq_true_eq, GT.gt, Int64.lt_iff_toInt_lt]
  have h1 : (10 : Int64).toInt = 10 := by decide
  have h2 : (-10 : Int64).toInt = -10 := by decide
  rw [h1, h2]
  omega

theorem near_iff_of_range (a b : Int64) (h1 : -2^63 + 10 ≤ a.toInt) (h2 : a.toInt ≤ 2^63 - 11) :
    Ref.near a b ↔ a.toInt - 10 < b.toInt ∧ b.toInt < a.toInt + 10 := by
  have hb1 := i64_ge b
  have hb2 := i64_lt b
  simp only [Ref.near, Int64.toInt_sub, Int.bmod_def]
  split <;> omega

theorem toInt_toInt64 (t : UInt64) : t.toInt64.toInt = (t.toNat : Int).bmod (2^64) := by
  show t.toBitVec.toInt = _
  rw [BitVec.toInt_eq_toNat_bmod]
  rfl

theorem add_ttl (now : Int64) (t : UInt64) (h : now.toInt + t.toNat < 2^63) :
    (now + t.toInt64).toInt = now.toInt + t.toNat := by
  rw [Int64.toInt_add, toInt_toInt64]
  have hn1 := i64_ge now
  have hn2 := i64_lt now
  have htn : t.toNat < 2^64 := t.toNat_lt
  simp only [Int.bmod_def]
  repeat' split
  all_goals omega

theorem ref_insert_self (r : Ref.RefMap) (now : Int64) (k : DatumKey) (v : DatumValue) (c : Option InsertConfig) :
    Ref.insert r now k v c k = match r k with
      | some old => if old.value = v ∧ Ref.near (Ref.expiry now c) old.expireAt then some old
          else some ⟨v, Ref.expiry now c⟩
      | none => some ⟨v, Ref.expiry now c⟩ := by
  unfold Ref.insert
  cases h : r k with
  | none => simp [Ref.update]
  | some old =>
    simp only
    split
    · exact h
    · simp [Ref.update]

theorem ref_insert_ne (r : Ref.RefMap) (now : Int64) (k k' : DatumKey) (v : DatumValue) (c : Option InsertConfig)
    (hne : k' ≠ k) : Ref.insert r now k v c k' = r k' := by
  unfold Ref.insert
  cases h : r k with
  | none => simp [Ref.update, hne]
  | some old =>
    simp only
    split
    · rfl
    · simp [Ref.update, hne]

/-- The key bytes under which a datum with key `k` is stored. -/
theorem getKeyAsBytes_some (k : DatumKey) (v : Option DatumValue) :
    getKeyAsBytes ⟨some k, v⟩ = some (encKey k) := (marshalKey_eq k).1

theorem getValueAsBytes_some (k : Option DatumKey) (v : DatumValue) :
    getValueAsBytes ⟨k, some v⟩ = some (encValue v) := (marshalValue_eq v).1

theorem encKey_inj {k l : DatumKey} (h : encKey k = encKey l) : k = l :=
  (encKey_append_inj k l [] [] (by simpa using h)).1

theorem encValue_inj {v w : DatumValue} (h : encValue v = encValue w) : v = w :=
  (encValue_append_inj v w [] [] (by simpa using h)).1

/-- Well-formed stores: unique keys, every entry is filed under the encoding of its own key. -/
structure WF0 (m : DBMap) : Prop where
  nodup : AMap.Nodup m
  keyed : ∀ b e, (b, e) ∈ m → ∃ k, e.datum.key = some k ∧ b = encKey k

/-- ... and in addition every entry has a value. -/
structure WF (m : DBMap) : Prop extends WF0 m where
  valued : ∀ b e, (b, e) ∈ m → ∃ v, e.datum.value = some v

theorem wf_nil : WF [] := ⟨⟨AMap.nodup_nil, by simp⟩, by simp⟩

theorem wf0_erase {m : DBMap} (h : WF0 m) (b : Bytes) : WF0 (m.erase b) :=
  ⟨AMap.nodup_erase h.nodup b, fun b' e he => h.keyed b' e ((AMap.mem_erase m b _).1 he).1⟩

theorem wf_erase {m : DBMap} (h : WF m) (b : Bytes) : WF (m.erase b) :=
  ⟨wf0_erase h.toWF0 b, fun b' e he => h.valued b' e ((AMap.mem_erase m b _).1 he).1⟩

theorem wf0_set {m : DBMap} (h : WF0 m) (k : DatumKey) (v : Option DatumValue) (x : Int64) :
    WF0 (m.set (encKey k) ⟨x, ⟨some k, v⟩⟩) := by
  refine ⟨AMap.nodup_set h.nodup _ _, ?_⟩
  intro b e he
  rcases (AMap.mem_set m _ _ _).1 he with he | ⟨he, _⟩
  · injection he with h1 h2; subst h1; subst h2; exact ⟨k, rfl, rfl⟩
  · exact h.keyed b e he

theorem wf_set {m : DBMap} (h : WF m) (k : DatumKey) (v : DatumValue) (x : Int64) :
    WF (m.set (encKey k) ⟨x, ⟨some k, some v⟩⟩) := by
  refine ⟨wf0_set h.toWF0 k _ x, ?_⟩
  intro b e he
  rcases (AMap.mem_set m _ _ _).1 he with he | ⟨he, _⟩
  · injection he with h1 h2; subst h2; exact ⟨v, rfl⟩
  · exact h.valued b e he

/-- Abstraction to the reference map. -/
def abs (m : DBMap) : Ref.RefMap := fun k =>
  match m.get? (encKey k) with
  | some e => match e.datum.value with
    | some v => some ⟨v, e.expireAt⟩
    | none => none
  | none => none

theorem WF.entry {m : DBMap} (h : WF m) {b : Bytes} {e : Entry} (he : (b, e) ∈ m) :
    ∃ k v, b = encKey k ∧ e = ⟨e.expireAt, ⟨some k, some v⟩⟩ := by
  obtain ⟨k, hk, hb⟩ := h.keyed b e he
  obtain ⟨v, hv⟩ := h.valued b e he
  refine ⟨k, v, hb, ?_⟩
  obtain ⟨x, kk, vv⟩ := e
  simp at hk hv
  subst hk; subst hv; rfl

theorem abs_some_iff {m : DBMap} (h : WF m) (k : DatumKey) (v : DatumValue) (x : Int64) :
    abs m k = some ⟨v, x⟩ ↔ m.get? (encKey k) = some ⟨x, ⟨some k, some v⟩⟩ := by
  constructor
  · intro ha
    unfold abs at ha
    split at ha
    · rename_i e he
      obtain ⟨k', v', hb, he'⟩ := h.entry (AMap.mem_of_get? he)
      have hk := encKey_inj hb
      subst hk
      rw [he'] at ha
      simp at ha
      rw [he, he', ha.1, ha.2]
    · cases ha
  · intro hg
    unfold abs
    rw [hg]

theorem abs_none_iff {m : DBMap} (h : WF m) (k : DatumKey) :
    abs m k = none ↔ m.get? (encKey k) = none := by
  constructor
  · intro ha
    cases hg : m.get? (encKey k) with
    | none => rfl
    | some e =>
      obtain ⟨k', v', hb, he'⟩ := h.entry (AMap.mem_of_get? hg)
      have hk := encKey_inj hb
      subst hk
      have := (abs_some_iff h k v' e.expireAt).2 (by rw [hg]; exact congrArg some he')
      rw [this] at ha; cases ha
  · intro hg
    unfold abs
    rw [hg]

theorem abs_set {m : DBMap} (k : DatumKey) (v : DatumValue) (x : Int64) :
    abs (m.set (encKey k) ⟨x, ⟨some k, some v⟩⟩) = Ref.update (abs m) k (some ⟨v, x⟩) := by
  funext k'
  unfold abs Ref.update
  by_cases hk : k' = k
  · subst hk; simp
  · have : encKey k ≠ encKey k' := fun e => hk (encKey_inj e).symm
    rw [AMap.get?_set_ne _ _ this, if_neg hk]

theorem abs_erase {m : DBMap} (k : DatumKey) : abs (m.erase (encKey k)) = Ref.update (abs m) k none := by
  funext k'
  unfold abs Ref.update
  by_cases hk : k' = k
  · subst hk; simp [AMap.get?_erase_self]
  · have : encKey k ≠ encKey k' := fun e => hk (encKey_inj e).symm
    rw [AMap.get?_erase_ne _ this, if_neg hk]

theorem expireAtOf_eq (now : Int64) (c : Option InsertConfig) : expireAtOf now c = Ref.expiry now c := rfl

/-- `InsertBDMap` on a well-formed store: never an error or panic, and it is the reference insert. -/
theorem insertBDMap_spec {m : DBMap} (h : WF m) (now : Int64) (k : DatumKey) (v : DatumValue)
    (config : Option InsertConfig) :
    ∃ m' b, insertBDMap now m (some ⟨some k, some v⟩) config = .ok (m', b) ∧ WF m' ∧
      abs m' = Ref.insert (abs m) now k v config ∧ (b = false → m' = m) := by
  unfold insertBDMap
  simp only [Res.ofOption_some, Res.bind_eq, Res.bind_ok, getKeyAsBytes_some, encodeToString,
    getValueAsBytes_some]
  cases hg : m.get? (encKey k) with
  | none =>
    refine ⟨_, true, rfl, wf_set h k v _, ?_, by simp⟩
    rw [abs_set]
    have : abs m k = none := (abs_none_iff h k).2 hg
    simp [Ref.insert, this, expireAtOf_eq]
  | some e =>
    obtain ⟨k', v', hb, he'⟩ := h.entry (AMap.mem_of_get? hg)
    have hk := encKey_inj hb
    subst hk
    have habs : abs m k = some ⟨v', e.expireAt⟩ := (abs_some_iff h k v' e.expireAt).2 (by rw [hg, ← he'])
    have hv : getValueAsBytes e.datum = some (encValue v') := by
      rw [he']; exact getValueAsBytes_some _ _
    simp only [hv, Res.ofOption_some, Res.bind_ok]
    by_cases hc : encValue v = encValue v' ∧ closeEnough (expireAtOf now config) e.expireAt = true
    · rw [if_pos hc]
      refine ⟨m, false, rfl, h, ?_, fun _ => rfl⟩
      have h1 := encValue_inj hc.1
      subst h1
      have h2 := (closeEnough_iff _ _).1 hc.2
      rw [expireAtOf_eq] at h2
      simp [Ref.insert, habs, h2]
    · rw [if_neg hc]
      refine ⟨_, true, rfl, wf_set h k v _, ?_, by simp⟩
      rw [abs_set]
      have : ¬ (v' = v ∧ Ref.near (Ref.expiry now config) e.expireAt) := by
        rintro ⟨h1, h2⟩
        exact hc ⟨by rw [h1], (closeEnough_iff _ _).2 h2⟩
      simp [Ref.insert, habs, this, expireAtOf_eq]

theorem deleteBDMap_eq (m : DBMap) (k : DatumKey) (v : Option DatumValue) :
    deleteBDMap m (some ⟨some k, v⟩) = .ok (m.erase (encKey k)) := by
  simp [deleteBDMap, getKeyAsBytes_some]

/-! ### The scan loop -/

/-- Iterating a callback over a list of entries, stopping at the first error. -/
def feed {σ : Type} (cb : σ → Entry → Res (σ × Option Err)) : List Entry → σ → Res (σ × Option Err)
  | [], s => .ok (s, none)
  | e :: es, s => (cb s e).bind fun (s', err) =>
      match err with
      | some x => .ok (s', some x)
      | none => feed cb es s'

/-- Entries of the visits that are not expired when examined. -/
def liveEntries (vs : List Visit) : List Entry :=
  (vs.filter fun v => !isExpired v.entry v.now).map (·.entry)

/-- Keys of the visits that are expired when examined. -/
def expiredKeys (vs : List Visit) : List Bytes :=
  (vs.filter fun v => isExpired v.entry v.now).map (·.key)

def eraseAll (m : DBMap) (ks : List Bytes) : DBMap := ks.foldl AMap.erase m

theorem get?_eraseAll (ks : List Bytes) : ∀ (m : DBMap) (b : Bytes),
    AMap.get? (eraseAll m ks) b = if b ∈ ks then none else m.get? b := by
  induction ks with
  | nil => intro m b; simp [eraseAll]
  | cons k ks ih =>
    intro m b
    show AMap.get? (eraseAll (m.erase k) ks) b = _
    rw [ih, AMap.get?_erase]
    by_cases h1 : b ∈ ks
    · simp [h1]
    · by_cases h2 : k = b
      · subst h2; simp
      · have : ¬ b = k := fun e => h2 e.symm
        simp [h1, h2, this]

theorem wf0_eraseAll (ks : List Bytes) : ∀ {m : DBMap}, WF0 m → WF0 (eraseAll m ks) := by
  induction ks with
  | nil => intro m h; exact h
  | cons k ks ih => intro m h; exact ih (wf0_erase h k)

theorem wf_eraseAll (ks : List Bytes) : ∀ {m : DBMap}, WF m → WF (eraseAll m ks) := by
  induction ks with
  | nil => intro m h; exact h
  | cons k ks ih => intro m h; exact ih (wf_erase h k)

theorem loopDBMap_complete {σ : Type} (cb : σ → Entry → Res (σ × Option Err)) (vs : List Visit) :
    ∀ (m : DBMap) (s : σ) (s' : σ), feed cb (liveEntries vs) s = .ok (s', none) →
      loopDBMap cb vs m s = .ok (eraseAll m (expiredKeys vs), s', none) := by
  induction vs with
  | nil =>
    intro m s s' h
    simp [liveEntries, feed] at h
    simp [loopDBMap, expiredKeys, eraseAll, h]
  | cons v vs ih =>
    intro m s s' h
    by_cases hx : isExpired v.entry v.now = true
    · have h1 : liveEntries (v :: vs) = liveEntries vs := by simp [liveEntries, hx]
      have h2 : expiredKeys (v :: vs) = v.key :: expiredKeys vs := by simp [expiredKeys, hx]
      rw [loopDBMap, if_pos hx, h2]
      rw [h1] at h
      exact ih _ _ _ h
    · have h1 : liveEntries (v :: vs) = v.entry :: liveEntries vs := by simp [liveEntries, hx]
      have h2 : expiredKeys (v :: vs) = expiredKeys vs := by simp [expiredKeys, hx]
      rw [loopDBMap, if_neg hx, h2]
      rw [h1, feed] at h
      cases hc : cb s v.entry with
      | panic => rw [hc] at h; cases h
      | err e => rw [hc] at h; cases h
      | ok p =>
        obtain ⟨s1, e⟩ := p
        rw [hc] at h
        simp only [Res.bind_ok] at h ⊢
        cases e with
        | some x => simp at h
        | none => exact ih _ _ _ h

theorem feed_stream (es : List Entry) : ∀ sent : List Datum,
    feed streamAllCb es sent = .ok (sent ++ es.map (·.datum), none) := by
  induction es with
  | nil => intro sent; simp [feed]
  | cons e es ih => intro sent; simp [feed, streamAllCb, ih]

theorem streamAll_eq (vs : List Visit) (m : DBMap) :
    streamAll vs m = .ok (eraseAll m (expiredKeys vs), (liveEntries vs).map (·.datum), none) := by
  rw [streamAll, loopDBMap_complete streamAllCb vs m [] _ (feed_stream _ _)]
  simp

theorem range_get? {m : DBMap} (h : AMap.Nodup m) {vs : List Visit} (hr : IsRange m vs) (v : Visit)
    (hv : v ∈ vs) : m.get? v.key = some v.entry := by
  apply AMap.get?_of_mem h
  exact hr.mem_iff.1 (List.mem_map_of_mem (f := fun v : Visit => (v.key, v.entry)) hv)

theorem range_of_get? {m : DBMap} {vs : List Visit} (hr : IsRange m vs) (b : Bytes) (e : Entry)
    (h : m.get? b = some e) : ∃ v ∈ vs, v.key = b ∧ v.entry = e := by
  have := hr.mem_iff.2 (AMap.mem_of_get? h)
  rw [List.mem_map] at this
  obtain ⟨v, hv, he⟩ := this
  injection he with h1 h2
  exact ⟨v, hv, h1, h2⟩

theorem isExpired_iff (e : Entry) (now : Int64) (v : DatumValue) :
    isExpired e now = true ↔ ¬ Ref.Rec.alive ⟨v, e.expireAt⟩ now := by
  simp only [isExpired, Ref.Rec.alive, Bool.and_eq_true, decide_eq_true_eq, ne_eq, not_or]
  constructor
  · rintro ⟨h1, h2⟩; exact ⟨h1, by rw [Int64.lt_iff_toInt_lt]; rw [Int64.le_iff_toInt_le] at h2; omega⟩
  · rintro ⟨h1, h2⟩; exact ⟨h1, by rw [Int64.lt_iff_toInt_lt] at h2; rw [Int64.le_iff_toInt_le]; omega⟩

end Veri.Store
