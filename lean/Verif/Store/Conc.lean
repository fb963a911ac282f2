import Verif.Store.Props
/-
C13: inserts, deletes and scans running concurrently.  The individual `sync.Map` operations are
atomic; everything between them can interleave.
-/
set_option autoImplicit false
namespace Veri.Store
open Gencoder

/-- The decision of data/newsync.go:43-57 given what `Load` returned: is this a new entry?
(`none`: a nil value makes `MarshalValue` panic.) -/
def isNewEntry (old : Option Entry) (entry : Entry) : Option Bool :=
  match old with
  | none => some true
  | some oldEntry =>
    match getValueAsBytes entry.datum, getValueAsBytes oldEntry.datum with
    | some v, some ov => some (!(decide (v = ov) && closeEnough entry.expireAt oldEntry.expireAt))
    | _, _ => none

/-- Program counters of the goroutines that touch the map. -/
inductive Thread where
  /-- data/newsync.go:43 about to `Load` (lines 28-41, all local, are done: `entry` and `mapKey`). -/
  | insLoad (key : Bytes) (e : Entry)
  /-- data/newsync.go:59 about to `Store`. -/
  | insStore (key : Bytes) (e : Entry)
  /-- returned nil: the insert is acknowledged. -/
  | insDone (key : Bytes) (e : Entry)
  /-- data/newsync.go:70 about to `Delete`. -/
  | delDelete (key : Bytes)
  | delDone (key : Bytes)
  /-- data/newsync.go:76 inside `Range`, between two visits; `seen` keys are not visited again. -/
  | scanIdle (seen : List Bytes)
  /-- data/newsync.go:76-78: visited `key`, read `e`, about to read the clock. -/
  | scanGot (seen : List Bytes) (key : Bytes) (e : Entry)
  /-- data/newsync.go:79: found `e` expired, about to `Delete(key)`. -/
  | scanPurge (seen : List Bytes) (key : Bytes) (e : Entry)
  | scanDone
  deriving DecidableEq

/-- A goroutine that has just been started. -/
def Thread.Initial : Thread → Prop
  | .insLoad _ _ => True
  | .delDelete _ => True
  | .scanIdle seen => seen = []
  | _ => False

/-- What a step does, for stating conditions on executions. -/
inductive Label where
  | spawn (t : Thread)
  | load (key : Bytes)
  | store (key : Bytes) (e : Entry)
  | delete (key : Bytes)
  | visit (key : Bytes)
  | examine (key : Bytes) (now : Int64)
  | purge (key : Bytes)
  | finish

structure CState where
  map : DBMap
  threads : List Thread

/-- One atomic step of one goroutine: `CStep s l s'`.  The stepping goroutine is somewhere in the
list. -/
inductive CStep : CState → Label → CState → Prop where
  | spawn {s t} : t.Initial → CStep s (.spawn t) ⟨s.map, t :: s.threads⟩
  | loadNew {m a b key e} : isNewEntry (m.get? key) e = some true →
      CStep ⟨m, a ++ .insLoad key e :: b⟩ (.load key) ⟨m, a ++ .insStore key e :: b⟩
  | loadOld {m a b key e} : isNewEntry (m.get? key) e = some false →
      CStep ⟨m, a ++ .insLoad key e :: b⟩ (.load key) ⟨m, a ++ .insDone key e :: b⟩
  | store {m a b key e} :
      CStep ⟨m, a ++ .insStore key e :: b⟩ (.store key e) ⟨m.set key e, a ++ .insDone key e :: b⟩
  | delete {m a b key} :
      CStep ⟨m, a ++ .delDelete key :: b⟩ (.delete key) ⟨m.erase key, a ++ .delDone key :: b⟩
  | visit {m a b seen key e} : key ∉ seen → m.get? key = some e →
      CStep ⟨m, a ++ .scanIdle seen :: b⟩ (.visit key) ⟨m, a ++ .scanGot (key :: seen) key e :: b⟩
  | examineLive {m a b seen key e now} : isExpired e now = false →
      CStep ⟨m, a ++ .scanGot seen key e :: b⟩ (.examine key now) ⟨m, a ++ .scanIdle seen :: b⟩
  | examineDead {m a b seen key e now} : isExpired e now = true →
      CStep ⟨m, a ++ .scanGot seen key e :: b⟩ (.examine key now) ⟨m, a ++ .scanPurge seen key e :: b⟩
  | purge {m a b seen key e} :
      CStep ⟨m, a ++ .scanPurge seen key e :: b⟩ (.purge key) ⟨m.erase key, a ++ .scanIdle seen :: b⟩
  | finish {m a b seen} :
      CStep ⟨m, a ++ .scanIdle seen :: b⟩ .finish ⟨m, a ++ .scanDone :: b⟩

inductive CSteps : CState → List Label → CState → Prop where
  | nil {s} : CSteps s [] s
  | cons {s s' s'' l ls} : CStep s l s' → CSteps s' ls s'' → CSteps s (l :: ls) s''

/-- The sequential insert is the insert goroutine run without interruption. -/
theorem insertBDMap_eq_thread (now : Int64) (m : DBMap) (k : DatumKey) (v : DatumValue)
    (config : Option InsertConfig) (m' : DBMap) (b : Bool)
    (h : insertBDMap now m (some ⟨some k, some v⟩) config = .ok (m', b)) :
    let e : Entry := ⟨expireAtOf now config, ⟨some k, some v⟩⟩
    isNewEntry (m.get? (encKey k)) e = some b ∧ m' = if b then m.set (encKey k) e else m := by
  unfold insertBDMap at h
  simp only [Res.ofOption_some, Res.bind_eq, Res.bind_ok, getKeyAsBytes_some, encodeToString,
    getValueAsBytes_some] at h
  cases hg : m.get? (encKey k) with
  | none =>
    rw [hg] at h
    simp only [Res.pure_eq, Res.ok.injEq, Prod.mk.injEq] at h
    obtain ⟨h1, h2⟩ := h
    subst h1; subst h2
    simp [isNewEntry]
  | some old =>
    rw [hg] at h
    simp only at h
    cases hv : getValueAsBytes old.datum with
    | none => rw [hv] at h; simp at h
    | some ov =>
      rw [hv] at h
      simp only [Res.ofOption_some, Res.bind_ok] at h
      by_cases hc : encValue v = ov ∧ closeEnough (expireAtOf now config) old.expireAt = true
      · rw [if_pos hc] at h
        simp only [Res.pure_eq, Res.ok.injEq, Prod.mk.injEq] at h
        obtain ⟨h1, h2⟩ := h
        subst h1; subst h2
        simp [isNewEntry, getValueAsBytes_some, hv, hc.1, hc.2]
      · rw [if_neg hc] at h
        simp only [Res.pure_eq, Res.ok.injEq, Prod.mk.injEq] at h
        obtain ⟨h1, h2⟩ := h
        subst h1; subst h2
        simp only [isNewEntry, getValueAsBytes_some, hv, if_true, and_true]
        congr 1
        simpa [Decidable.imp_iff_not_or] using hc

/-- No step of the execution deletes or stores `key`. -/
def NoWrite (key : Bytes) (ls : List Label) : Prop :=
  ∀ l ∈ ls, l ≠ .delete key ∧ ∀ e, l ≠ .store key e

/-- No clock reading made while examining `key` has reached the expiry of `e`. -/
def NotExpiredDuring (key : Bytes) (e : Entry) (ls : List Label) : Prop :=
  ∀ now, Label.examine key now ∈ ls → isExpired e now = false

end Veri.Store

namespace Veri
open Store Gencoder

/-- C13, full statement: an insert that stored its entry keeps it as long as nobody deletes or stores
that key and it does not expire.  FALSE of the code. -/
def C13_insert_survives_statement : Prop :=
  ∀ (s0 s1 s2 s3 : CState) (ls1 ls2 : List Label) (key : Bytes) (e : Entry),
    s0.threads = [] → CSteps s0 ls1 s1 → CStep s1 (.store key e) s2 → CSteps s2 ls2 s3 →
    NoWrite key ls2 → NotExpiredDuring key e ls2 → s3.map.get? key = some e

/-- C13, counterexample: a scan reads the expired entry of a key and finds it expired; before it deletes
the key, a fresh insert for the same key stores its entry and is acknowledged; the scan then deletes
the fresh entry. -/
theorem C13_insert_survives_fails : ¬ C13_insert_survives_statement := by
  intro h
  let old : Entry := ⟨500, ⟨some (exKey 1), some (exVal 1)⟩⟩
  let new : Entry := ⟨5000, ⟨some (exKey 1), some (exVal 2)⟩⟩
  let key : Bytes := encKey (exKey 1)
  have hnew : isNewEntry (AMap.get? [(key, old)] key) new = some true := by
    rw [get?_single]
    have : encValue (exVal 2) ≠ encValue (exVal 1) := fun e => by
      have := encValue_inj e; simp [exVal] at this
    simp [isNewEntry, new, old, getValueAsBytes_some, this]
  have r1 : CSteps ⟨[(key, old)], []⟩
      [.spawn (.scanIdle []), .visit key, .examine key 1000, .spawn (.insLoad key new), .load key]
      ⟨[(key, old)], [.insStore key new, .scanPurge [key] key old]⟩ :=
    .cons (.spawn rfl) (.cons (.visit (a := []) (e := old) (by simp) (get?_single _ _))
      (.cons (.examineDead (a := []) (by decide))
        (.cons (.spawn trivial) (.cons (.loadNew (a := []) hnew) .nil))))
  have r2 : CStep ⟨[(key, old)], [.insStore key new, .scanPurge [key] key old]⟩ (.store key new)
      ⟨AMap.set [(key, old)] key new, [.insDone key new, .scanPurge [key] key old]⟩ := .store (a := [])
  have r3 : CSteps ⟨AMap.set [(key, old)] key new, [.insDone key new, .scanPurge [key] key old]⟩ [.purge key]
      ⟨AMap.erase (AMap.set [(key, old)] key new) key, [.insDone key new, .scanIdle [key]]⟩ :=
    .cons (.purge (a := [.insDone key new])) .nil
  have := h ⟨[(key, old)], []⟩ _ _ _ _ _ key new rfl r1 r2 r3 (by simp [NoWrite]) (by simp [NotExpiredDuring])
  rw [AMap.get?_erase_self] at this
  cases this

namespace Store

/-- No scan is about to purge `key`, and scans that have already read an entry for `key` read `e` or one that
never expires. -/
def NoPendingPurge (key : Bytes) (e : Entry) (s : CState) : Prop :=
  ∀ t ∈ s.threads, (∀ seen e', t ≠ .scanPurge seen key e') ∧
    (∀ seen e', t = .scanGot seen key e' → e' = e ∨ e'.expireAt = 0)

theorem survives_step {s s' : CState} {l : Label} {key : Bytes} {e : Entry} (hs : CStep s l s')
    (hm : s.map.get? key = some e) (hp : NoPendingPurge key e s)
    (hw : l ≠ .delete key ∧ ∀ e', l ≠ .store key e') (hx : ∀ now, l = .examine key now → isExpired e now = false) :
    s'.map.get? key = some e ∧ NoPendingPurge key e s' := by
  have repl : ∀ {a b : List Thread} {t t' : Thread}, (∀ x ∈ a ++ t :: b, (∀ seen e', x ≠ .scanPurge seen key e') ∧
      (∀ seen e', x = .scanGot seen key e' → e' = e ∨ e'.expireAt = 0)) →
      ((∀ seen e', t' ≠ .scanPurge seen key e') ∧ (∀ seen e', t' = .scanGot seen key e' → e' = e ∨ e'.expireAt = 0)) →
      ∀ x ∈ a ++ t' :: b, (∀ seen e', x ≠ .scanPurge seen key e') ∧
      (∀ seen e', x = .scanGot seen key e' → e' = e ∨ e'.expireAt = 0) := by
    intro a b t t' h ht' x hx
    rcases List.mem_append.1 hx with hx | hx
    · exact h x (List.mem_append.2 (Or.inl hx))
    · rcases List.mem_cons.1 hx with hx | hx
      · subst hx; exact ht'
      · exact h x (List.mem_append.2 (Or.inr (List.mem_cons_of_mem _ hx)))
  cases hs with
  | spawn hi =>
    refine ⟨hm, ?_⟩
    intro x hx'
    rcases List.mem_cons.1 hx' with hx' | hx'
    · subst hx'
      constructor
      · intro seen e' he; subst he; exact hi
      · intro seen e' he; subst he; exact absurd hi (by simp [Thread.Initial])
    · exact hp x hx'
  | loadNew _ => exact ⟨hm, repl hp (by simp)⟩
  | loadOld _ => exact ⟨hm, repl hp (by simp)⟩
  | @store m a b key' e' =>
    have hne : key' ≠ key := fun hk => by subst hk; exact hw.2 _ rfl
    exact ⟨by simp only [AMap.get?_set_ne _ _ hne]; exact hm, repl hp (by simp)⟩
  | @delete m a b key' =>
    have hne : key' ≠ key := fun hk => by subst hk; exact hw.1 rfl
    exact ⟨by simp only [AMap.get?_erase_ne _ hne]; exact hm, repl hp (by simp)⟩
  | @visit m a b seen key' e' _ hg =>
    refine ⟨hm, repl hp ⟨by simp, ?_⟩⟩
    intro seen2 e2 he
    injection he with _ h2 h3
    subst h2; subst h3
    simp only at hm
    rw [hm] at hg
    injection hg with hg
    exact Or.inl hg.symm
  | examineLive _ => exact ⟨hm, repl hp (by simp)⟩
  | @examineDead m a b seen key' e' now hd =>
    refine ⟨hm, repl hp ⟨?_, by simp⟩⟩
    intro seen2 e2 he
    injection he with _ h2 h3
    subst h2; subst h3
    have := (hp (.scanGot seen key' e') (by simp)).2 seen e' rfl
    rcases this with h | h
    · subst h; rw [hx now rfl] at hd; cases hd
    · simp [isExpired, h] at hd
  | @purge m a b seen key' e' =>
    have hne : key' ≠ key := fun hk => by
      subst hk; exact (hp (.scanPurge seen key' e') (by simp)).1 seen e' rfl
    exact ⟨by simp only [AMap.get?_erase_ne _ hne]; exact hm, repl hp (by simp)⟩
  | finish => exact ⟨hm, repl hp (by simp)⟩

theorem survives_steps {s s' : CState} {ls : List Label} (hs : CSteps s ls s') (key : Bytes) (e : Entry) :
    s.map.get? key = some e → NoPendingPurge key e s → NoWrite key ls → NotExpiredDuring key e ls →
    s'.map.get? key = some e := by
  induction hs with
  | nil => intro hm _ _ _; exact hm
  | cons h1 _ ih =>
    intro hm hp hw hx
    obtain ⟨hm', hp'⟩ := survives_step h1 hm hp (hw _ List.mem_cons_self)
      (fun now hl => hx now (by rw [← hl]; exact List.mem_cons_self))
    exact ih hm' hp' (fun l hl => hw l (List.mem_cons_of_mem _ hl))
      (fun now hl => hx now (List.mem_cons_of_mem _ hl))

/-- Invariant for keys that never get a TTL. -/
def Permanent (key : Bytes) (s : CState) : Prop :=
  (∀ e, s.map.get? key = some e → e.expireAt = 0) ∧
  ∀ t ∈ s.threads, (∀ seen e', t ≠ .scanPurge seen key e') ∧
    (∀ seen e', t = .scanGot seen key e' → e'.expireAt = 0) ∧
    (∀ e', t = .insLoad key e' → e'.expireAt = 0) ∧ (∀ e', t = .insStore key e' → e'.expireAt = 0)

theorem permanent_step {s s' : CState} {l : Label} {key : Bytes} (hs : CStep s l s') (hp : Permanent key s)
    (hl : ∀ e, l = .spawn (.insLoad key e) → e.expireAt = 0) : Permanent key s' := by
  obtain ⟨hm, hp⟩ := hp
  have repl : ∀ {a b : List Thread} {t t' : Thread} {P : Thread → Prop}, (∀ x ∈ a ++ t :: b, P x) → P t' →
      ∀ x ∈ a ++ t' :: b, P x := by
    intro a b t t' P h ht' x hx
    rcases List.mem_append.1 hx with hx | hx
    · exact h x (List.mem_append.2 (Or.inl hx))
    · rcases List.mem_cons.1 hx with hx | hx
      · subst hx; exact ht'
      · exact h x (List.mem_append.2 (Or.inr (List.mem_cons_of_mem _ hx)))
  cases hs with
  | @spawn _ t hi =>
    refine ⟨hm, ?_⟩
    intro x hx'
    rcases List.mem_cons.1 hx' with hx' | hx'
    · subst hx'
      refine ⟨?_, ?_, ?_, ?_⟩
      · intro seen e' he; subst he; exact hi
      · intro seen e' he; subst he; exact absurd hi (by simp [Thread.Initial])
      · intro e' he; exact hl e' (by rw [he])
      · intro e' he; subst he; exact absurd hi (by simp [Thread.Initial])
    · exact hp x hx'
  | @loadNew m a b key' e' _ =>
    refine ⟨hm, repl hp ⟨by simp, by simp, by simp, ?_⟩⟩
    intro e2 he
    injection he with h1 h2
    subst h1; subst h2
    exact (hp _ (by simp)).2.2.1 _ rfl
  | loadOld _ => exact ⟨hm, repl hp (by simp)⟩
  | @store m a b key' e' =>
    refine ⟨?_, repl hp (by simp)⟩
    intro e2 he
    simp only [AMap.get?_set] at he
    split at he
    · rename_i hk
      subst hk
      injection he with he; subst he
      exact (hp _ (by simp)).2.2.2 _ rfl
    · exact hm e2 he
  | @delete m a b key' =>
    refine ⟨?_, repl hp (by simp)⟩
    intro e2 he
    simp only [AMap.get?_erase] at he
    split at he
    · cases he
    · exact hm e2 he
  | @visit m a b seen key' e' _ hg =>
    refine ⟨hm, repl hp ⟨by simp, ?_, by simp, by simp⟩⟩
    intro seen2 e2 he
    injection he with _ h2 h3
    subst h2; subst h3
    exact hm _ hg
  | examineLive _ => exact ⟨hm, repl hp (by simp)⟩
  | @examineDead m a b seen key' e' now hd =>
    refine ⟨hm, repl hp ⟨?_, by simp, by simp, by simp⟩⟩
    intro seen2 e2 he
    injection he with _ h2 h3
    subst h2; subst h3
    have := (hp _ (List.mem_append.2 (Or.inr List.mem_cons_self))).2.1 _ _ rfl
    simp [isExpired, this] at hd
  | @purge m a b seen key' e' =>
    refine ⟨?_, repl hp (by simp)⟩
    intro e2 he
    simp only [AMap.get?_erase] at he
    split at he
    · cases he
    · exact hm e2 he
  | finish => exact ⟨hm, repl hp (by simp)⟩

theorem permanent_steps {s s' : CState} {ls : List Label} (hs : CSteps s ls s') (key : Bytes) :
    Permanent key s → (∀ e, Label.spawn (.insLoad key e) ∈ ls → e.expireAt = 0) → Permanent key s' := by
  induction hs with
  | nil => intro h _; exact h
  | cons h1 _ ih =>
    intro h hl
    exact ih (permanent_step h1 h (fun e he => hl e (by rw [← he]; exact List.mem_cons_self)))
      (fun e he => hl e (List.mem_cons_of_mem _ he))

end Store

/-- C13, partial 1.  The insert survives every interleaving in which, at the moment of its store, no scan
holds an older expiring entry of that key.  (Missing: exactly the race of the counterexample.) -/
theorem C13_insert_survives_partial (s1 s2 s3 : CState) (ls2 : List Label) (key : Bytes) (e : Entry)
    (hst : CStep s1 (.store key e) s2) (h2 : CSteps s2 ls2 s3) (hp : NoPendingPurge key e s1)
    (hw : NoWrite key ls2) (hx : NotExpiredDuring key e ls2) : s3.map.get? key = some e := by
  cases hst with
  | @store m a b =>
    refine survives_steps h2 key e (AMap.get?_set_self _ _ _) ?_ hw hx
    intro x hx'
    rcases List.mem_append.1 hx' with h | h
    · exact hp x (List.mem_append.2 (Or.inl h))
    · rcases List.mem_cons.1 h with h | h
      · subst h; simp
      · exact hp x (List.mem_append.2 (Or.inr (List.mem_cons_of_mem _ h)))

/-- C13, partial 2.  For a key that is only ever inserted without a TTL, no insert is ever lost, in any
interleaving of any number of inserts, deletes and scans. -/
theorem C13_permanent_keys_survive (m0 : DBMap) (s1 s2 s3 : CState) (ls1 ls2 : List Label) (key : Bytes)
    (e : Entry) (hm0 : ∀ e, m0.get? key = some e → e.expireAt = 0) (h1 : CSteps ⟨m0, []⟩ ls1 s1)
    (hst : CStep s1 (.store key e) s2) (h2 : CSteps s2 ls2 s3)
    (hperm : ∀ e', Label.spawn (.insLoad key e') ∈ ls1 → e'.expireAt = 0)
    (hw : NoWrite key ls2) : s3.map.get? key = some e := by
  have hp := permanent_steps h1 key ⟨hm0, by simp⟩ hperm
  have he : e.expireAt = 0 := by
    cases hst with
    | store => exact (hp.2 _ (by simp)).2.2.2 _ rfl
  refine C13_insert_survives_partial s1 s2 s3 ls2 key e hst h2 ?_ hw ?_
  · intro t ht
    obtain ⟨g1, g2, _⟩ := hp.2 t ht
    exact ⟨g1, fun seen e' h => Or.inr (g2 seen e' h)⟩
  · intro now _; simp [isExpired, he]

/-- The hypotheses of both partial theorems are met by an insert that runs while a scan is in progress. -/
example : ∃ s1 s2 s3 : CState, ∃ ls1 ls2 : List Label,
    let e : Entry := ⟨0, ⟨some (exKey 1), some (exVal 2)⟩⟩
    CSteps ⟨[], []⟩ ls1 s1 ∧ CStep s1 (.store [1] e) s2 ∧ CSteps s2 ls2 s3 ∧ NoPendingPurge [1] e s1 ∧
    NoWrite [1] ls2 ∧ NotExpiredDuring [1] e ls2 ∧ Label.examine [1] 9999 ∈ ls2 := by
  let e : Entry := ⟨0, ⟨some (exKey 1), some (exVal 2)⟩⟩
  refine ⟨⟨[], [.insStore [1] e, .scanIdle []]⟩, ⟨AMap.set [] [1] e, [.insDone [1] e, .scanIdle []]⟩,
    ⟨AMap.set [] [1] e, [.insDone [1] e, .scanIdle [[1]]]⟩,
    [.spawn (.scanIdle []), .spawn (.insLoad [1] e), .load [1]], [.visit [1], .examine [1] 9999],
    ?_, .store (a := []), ?_, ?_, by simp [NoWrite], by simp [NotExpiredDuring, isExpired], by simp⟩
  · exact .cons (.spawn rfl) (.cons (.spawn trivial) (.cons (.loadNew (a := []) rfl) .nil))
  · exact .cons (.visit (a := [.insDone [1] e]) (e := e) (by simp) (by simp))
      (.cons (.examineLive (a := [.insDone [1] e]) (by decide)) .nil)
  · simp [NoPendingPurge]

end Veri
