import Verif.Store.Props
/-
A scan of a data set (data/newsync.go:74-91 `LoopDBMap`) while other goroutines write: C123, C124.

The documentation of sync.Map: "Range does not necessarily correspond to any consistent snapshot of the Map's contents: no key will be
visited more than once, but if the value for any key is stored or deleted concurrently (including by f), Range may reflect any mapping
for that key from any point during the Range call."
-/
set_option autoImplicit false
namespace Veri
open Gencoder

namespace During
open Store

/-- Where the scan is. -/
inductive Pc where
  /-- data/newsync.go:76 between two visits -/
  | idle
  /-- data/newsync.go:77-78: the entry has been read, the clock not yet -/
  | got (key : Bytes) (e : Entry)
  /-- data/newsync.go:79: the entry has expired, its key is about to be deleted -/
  | purge (key : Bytes)
  /-- returned, with the error of the callback -/
  | done (err : Option Err)
  | panicked

/-- The state: the contents of the map since the call, newest first; the values of the clock since the call, newest first; the
scan: where it is, what it has examined, what the callback has come to. -/
structure SS (σ : Type) where
  maps : List DBMap
  clocks : List Int64
  pc : Pc
  seen : List Visit
  acc : σ

variable {σ : Type} (cb : σ → Entry → Res (σ × Option Err))

/-- The call, on the map `m` when the clock shows `now`. -/
def start (m : DBMap) (now : Int64) (s : σ) : SS σ := ⟨[m], [now], .idle, [], s⟩

/-- One step.  Other goroutines may change the map to any well-formed one (data filed under their own keys, which is all that inserts,
deletes and other scans produce: C08, C13). -/
inductive Step : SS σ → SS σ → Prop where
  | other {s : SS σ} (m : DBMap) : WF m → Step s { s with maps := m :: s.maps }
  | clock {s : SS σ} (t : Int64) : Step s { s with clocks := t :: s.clocks }
  /-- a key is visited once, with any mapping it has had since the call -/
  | visit {maps clocks seen acc} (key : Bytes) (e : Entry) (m : DBMap) : key ∉ seen.map (·.key) → m ∈ maps → m.get? key = some e →
      Step ⟨maps, clocks, .idle, seen, acc⟩ ⟨maps, clocks, .got key e, seen, acc⟩
  | dead {maps now clocks seen acc key e} : isExpired e now = true →
      Step ⟨maps, now :: clocks, .got key e, seen, acc⟩ ⟨maps, now :: clocks, .purge key, seen ++ [⟨key, e, now⟩], acc⟩
  | erase {m maps clocks seen acc key} :
      Step ⟨m :: maps, clocks, .purge key, seen, acc⟩ ⟨m.erase key :: m :: maps, clocks, .idle, seen, acc⟩
  | live {maps now clocks seen acc key e acc'} : isExpired e now = false → cb acc e = .ok (acc', none) →
      Step ⟨maps, now :: clocks, .got key e, seen, acc⟩ ⟨maps, now :: clocks, .idle, seen ++ [⟨key, e, now⟩], acc'⟩
  | stop {maps now clocks seen acc key e acc' err} : isExpired e now = false → cb acc e = .ok (acc', some err) →
      Step ⟨maps, now :: clocks, .got key e, seen, acc⟩ ⟨maps, now :: clocks, .done (some err), seen ++ [⟨key, e, now⟩], acc'⟩
  | panic {maps now clocks seen acc key e} : isExpired e now = false → cb acc e = .panic →
      Step ⟨maps, now :: clocks, .got key e, seen, acc⟩ ⟨maps, now :: clocks, .panicked, seen, acc⟩
  /-- `Range` ends: the keys that have been in the map all the time have been visited -/
  | finish {maps clocks seen acc} : (∀ key, (∀ m ∈ maps, (m.get? key).isSome) → key ∈ seen.map (·.key)) →
      Step ⟨maps, clocks, .idle, seen, acc⟩ ⟨maps, clocks, .done none, seen, acc⟩

/-- The states that can be reached while the scan runs (and immediately after it). -/
inductive Reach (s0 : SS σ) : SS σ → Prop where
  | refl : Reach s0 s0
  | step {s s' : SS σ} : Reach s0 s → (∀ e, s.pc ≠ .done e) → Step cb s s' → Reach s0 s'

/-! ### Invariant -/

structure Inv (s0 : σ) (s : SS σ) : Prop where
  wf : ∀ m ∈ s.maps, WF m
  ne : s.maps ≠ []
  nodup : (s.seen.map (·.key)).Nodup
  read : ∀ v ∈ s.seen, v.now ∈ s.clocks ∧ ∃ m ∈ s.maps, m.get? v.key = some v.entry
  got : ∀ key e, s.pc = .got key e → key ∉ s.seen.map (·.key) ∧ ∃ m ∈ s.maps, m.get? key = some e
  all : s.pc = .done none → ∀ key, (∀ m ∈ s.maps, (m.get? key).isSome) → key ∈ s.seen.map (·.key)
  fed : (∀ err, s.pc ≠ .done (some err)) → feed cb (liveEntries s.seen) s0 = .ok (s.acc, none)
  bad : s.pc = .panicked → ∃ v : Visit, (∃ m ∈ s.maps, m.get? v.key = some v.entry) ∧ cb s.acc v.entry = .panic

variable {cb}

theorem feed_snoc : ∀ (es : List Entry) (e : Entry) (s s1 : σ) (r : Res (σ × Option Err)),
    feed cb es s = .ok (s1, none) → cb s1 e = r →
    feed cb (es ++ [e]) s = r.bind fun (s', err) =>
      match err with
      | some x => .ok (s', some x)
      | none => .ok (s', none)
  | [], e, s, s1, r, h, hr => by
    simp only [feed, Res.ok.injEq, Prod.mk.injEq] at h
    rw [List.nil_append, feed, h.1, hr]
    cases r with
    | ok p => obtain ⟨a, b⟩ := p; cases b <;> rfl
    | err _ => rfl
    | panic => rfl
  | x :: es, e, s, s1, r, h, hr => by
    rw [feed] at h
    cases hc : cb s x with
    | panic => rw [hc] at h; cases h
    | err _ => rw [hc] at h; cases h
    | ok p =>
      obtain ⟨a, b⟩ := p
      rw [hc] at h
      cases b with
      | some y => simp at h
      | none =>
        simp only [Res.bind_ok] at h
        rw [List.cons_append, feed, hc]
        exact feed_snoc es e a s1 r h hr

theorem live_snoc_live {vs : List Visit} {v : Visit} (h : isExpired v.entry v.now = false) :
    liveEntries (vs ++ [v]) = liveEntries vs ++ [v.entry] := by
  simp [liveEntries, List.filter_append, h]

theorem live_snoc_dead {vs : List Visit} {v : Visit} (h : isExpired v.entry v.now = true) :
    liveEntries (vs ++ [v]) = liveEntries vs := by
  simp [liveEntries, List.filter_append, h]

theorem inv_start {m : DBMap} (h : WF m) (now : Int64) (s : σ) : Inv cb s (start m now s) := by
  refine ⟨?_, by simp [start], by simp [start], by simp [start], ?_, ?_, fun _ => rfl, ?_⟩
  · intro x hx; rw [List.mem_singleton.1 hx]; exact h
  all_goals simp [start]

theorem inv_step {s0 : σ} {s s' : SS σ} (h : Inv cb s0 s) (hd : ∀ e, s.pc ≠ .done e) (hs : Step cb s s') : Inv cb s0 s' := by
  cases hs with
  | other m hm =>
    refine ⟨?_, by simp, h.nodup, ?_, ?_, fun he => absurd he (hd _), h.fed, ?_⟩
    · intro x hx
      rcases List.mem_cons.1 hx with hx | hx
      · subst hx; exact hm
      · exact h.wf x hx
    · intro v hv
      obtain ⟨h1, x, hx, hg⟩ := h.read v hv
      exact ⟨h1, x, List.mem_cons_of_mem _ hx, hg⟩
    · intro key e he
      obtain ⟨h1, x, hx, hg⟩ := h.got key e he
      exact ⟨h1, x, List.mem_cons_of_mem _ hx, hg⟩
    · intro hp
      obtain ⟨v, ⟨x, hx, hg⟩, hb⟩ := h.bad hp
      exact ⟨v, ⟨x, List.mem_cons_of_mem _ hx, hg⟩, hb⟩
  | clock t =>
    refine ⟨h.wf, h.ne, h.nodup, ?_, h.got, fun he => absurd he (hd _), h.fed, h.bad⟩
    intro v hv
    obtain ⟨h1, h2⟩ := h.read v hv
    exact ⟨List.mem_cons_of_mem _ h1, h2⟩
  | visit key e m hk hm hg =>
    refine ⟨h.wf, h.ne, h.nodup, h.read, ?_, (by intro he; cases he), fun _ => h.fed (by simp), (by intro hp; cases hp)⟩
    intro key' e' he
    cases he
    exact ⟨hk, m, hm, hg⟩
  | @dead maps now clocks seen acc key e hx =>
    obtain ⟨hk, m, hm, hg⟩ := h.got key e rfl
    refine ⟨h.wf, h.ne, ?_, ?_, (by intro _ _ he; cases he), (by intro he; cases he), fun _ => ?_, (by intro hp; cases hp)⟩
    · simp only [List.map_append, List.map_cons, List.map_nil]
      exact List.nodup_append.2 ⟨h.nodup, by simp, by intro a ha b hb; simp only [List.mem_singleton] at hb; subst hb; rintro rfl; exact hk ha⟩
    · intro v hv
      rcases List.mem_append.1 hv with hv | hv
      · exact h.read v hv
      · rw [List.mem_singleton.1 hv]; exact ⟨List.mem_cons_self, m, hm, hg⟩
    · show feed cb (liveEntries (seen ++ [⟨key, e, now⟩])) s0 = _
      rw [live_snoc_dead hx]; exact h.fed (by simp)
  | @erase m maps clocks seen acc key =>
    refine ⟨?_, by simp, h.nodup, ?_, (by intro _ _ he; cases he), (by intro he; cases he), fun _ => h.fed (by simp), (by intro hp; cases hp)⟩
    · intro x hx
      rcases List.mem_cons.1 hx with hx | hx
      · subst hx; exact wf_erase (h.wf m List.mem_cons_self) key
      · exact h.wf x hx
    · intro v hv
      obtain ⟨h1, x, hx, hg⟩ := h.read v hv
      exact ⟨h1, x, List.mem_cons_of_mem _ hx, hg⟩
  | @live maps now clocks seen acc key e acc' hx hc =>
    obtain ⟨hk, m, hm, hg⟩ := h.got key e rfl
    refine ⟨h.wf, h.ne, ?_, ?_, (by intro _ _ he; cases he), (by intro he; cases he), fun _ => ?_, (by intro hp; cases hp)⟩
    · simp only [List.map_append, List.map_cons, List.map_nil]
      exact List.nodup_append.2 ⟨h.nodup, by simp, by intro a ha b hb; simp only [List.mem_singleton] at hb; subst hb; rintro rfl; exact hk ha⟩
    · intro v hv
      rcases List.mem_append.1 hv with hv | hv
      · exact h.read v hv
      · rw [List.mem_singleton.1 hv]; exact ⟨List.mem_cons_self, m, hm, hg⟩
    · show feed cb (liveEntries (seen ++ [⟨key, e, now⟩])) s0 = _
      rw [live_snoc_live hx, feed_snoc _ e s0 acc _ (h.fed (by simp)) hc]
      rfl
  | @stop maps now clocks seen acc key e acc' err hx hc =>
    obtain ⟨hk, m, hm, hg⟩ := h.got key e rfl
    refine ⟨h.wf, h.ne, ?_, ?_, (by intro _ _ he; cases he), (by intro he; cases he), fun hf => absurd rfl (hf err), (by intro hp; cases hp)⟩
    · simp only [List.map_append, List.map_cons, List.map_nil]
      exact List.nodup_append.2 ⟨h.nodup, by simp, by intro a ha b hb; simp only [List.mem_singleton] at hb; subst hb; rintro rfl; exact hk ha⟩
    · intro v hv
      rcases List.mem_append.1 hv with hv | hv
      · exact h.read v hv
      · rw [List.mem_singleton.1 hv]; exact ⟨List.mem_cons_self, m, hm, hg⟩
  | @panic maps now clocks seen acc key e hx hc =>
    obtain ⟨hk, m, hm, hg⟩ := h.got key e rfl
    exact ⟨h.wf, h.ne, h.nodup, h.read, (by intro _ _ he; cases he), (by intro he; cases he), fun _ => h.fed (by simp),
      fun _ => ⟨⟨key, e, now⟩, ⟨m, hm, hg⟩, hc⟩⟩
  | @finish maps clocks seen acc ha =>
    exact ⟨h.wf, h.ne, h.nodup, h.read, (by intro _ _ he; cases he), fun _ => ha, fun _ => h.fed (by simp), (by intro hp; cases hp)⟩

theorem inv_reach {m : DBMap} (hm : WF m) {now : Int64} {s0 : σ} {s : SS σ} (h : Reach cb (start m now s0) s) : Inv cb s0 s := by
  induction h with
  | refl => exact inv_start hm now s0
  | step _ hd hs ih => exact inv_step ih hd hs

end During

namespace Ref

/-- The datum was stored at some moment and alive at some moment. -/
def sometime (maps : List RefMap) (clocks : List Int64) (k : DatumKey) (v : DatumValue) : Prop :=
  ∃ r ∈ maps, ∃ x, r k = some x ∧ x.value = v ∧ ∃ t ∈ clocks, x.alive t

/-- The datum was stored, with the same expiry, and alive all the time. -/
def throughout (maps : List RefMap) (clocks : List Int64) (k : DatumKey) (v : DatumValue) : Prop :=
  ∃ x : Rec, x.value = v ∧ (∀ r ∈ maps, r k = some x) ∧ ∀ t ∈ clocks, x.alive t

/-- `out` is an answer that a scan may give: at most one datum per key, each stored and alive at some moment; for every key that is
there all the time one of its records at some moment (if it is alive all the time). -/
structure Selection (maps : List RefMap) (clocks : List Int64) (out : List Datum) : Prop where
  nodup : (out.map (·.key)).Nodup
  known : ∀ d ∈ out, ∃ k v, d = ⟨some k, some v⟩ ∧ sometime maps clocks k v
  kept : ∀ k, (∀ r ∈ maps, (r k).isSome) → ∃ r ∈ maps, ∃ x, r k = some x ∧
    ((∀ t ∈ clocks, x.alive t) → ⟨some k, some x.value⟩ ∈ out)

/-- In particular nothing is missing that is there all the time. -/
theorem Selection.stable {maps : List RefMap} {clocks : List Int64} {out : List Datum} (h : Selection maps clocks out)
    (hne : maps ≠ []) (k : DatumKey) (v : DatumValue) (ht : throughout maps clocks k v) : ⟨some k, some v⟩ ∈ out := by
  obtain ⟨x, hv, hr, ha⟩ := ht
  obtain ⟨r, hm, y, hy, hk⟩ := h.kept k (fun r hm => by rw [hr r hm]; rfl)
  rw [hr r hm] at hy
  cases hy
  rw [← hv]
  exact hk ha

end Ref

namespace During
open Store
variable {σ : Type} {cb : σ → Entry → Res (σ × Option Err)}

theorem key_of {m : DBMap} (h : WF m) {b : Bytes} {e : Entry} (hg : m.get? b = some e) :
    ∃ k v, b = encKey k ∧ e = ⟨e.expireAt, ⟨some k, some v⟩⟩ ∧ abs m k = some ⟨v, e.expireAt⟩ := by
  obtain ⟨k, v, hb, he⟩ := h.entry (AMap.mem_of_get? hg)
  refine ⟨k, v, hb, he, ?_⟩
  rw [abs_some_iff h, ← hb, hg, ← he]

/-- The data handed to the callback of a scan. -/
theorem consistent {s0 : σ} {s : SS σ} (h : Inv cb s0 s) (hd : s.pc = .done none) :
    Ref.Selection (s.maps.map abs) s.clocks ((liveEntries s.seen).map (·.datum)) := by
  constructor
  · have h2 : ((liveEntries s.seen).map (·.datum)).map (·.key) =
        ((s.seen.filter fun v => !isExpired v.entry v.now).map fun v => v.entry.datum.key) := by
      simp [liveEntries, Function.comp_def]
    rw [h2]
    have h3 : (s.seen.filter fun v => !isExpired v.entry v.now).Pairwise (fun a b => a.key ≠ b.key) :=
      (List.pairwise_map.1 h.nodup).filter _
    apply List.pairwise_map.2
    refine h3.imp_of_mem ?_
    intro a b ha hb hne heq
    obtain ⟨_, ma, hma, hga⟩ := h.read a (List.mem_filter.1 ha).1
    obtain ⟨_, mb, hmb, hgb⟩ := h.read b (List.mem_filter.1 hb).1
    obtain ⟨ka, va, hka, hea, _⟩ := key_of (h.wf ma hma) hga
    obtain ⟨kb, vb, hkb, heb, _⟩ := key_of (h.wf mb hmb) hgb
    rw [hea, heb] at heq
    simp only [Option.some.injEq] at heq
    exact hne (by rw [hka, hkb, heq])
  · intro d hd'
    obtain ⟨e, he, rfl⟩ := List.mem_map.1 hd'
    obtain ⟨v, hv, rfl⟩ := List.mem_map.1 he
    obtain ⟨hv, hx⟩ := List.mem_filter.1 hv
    obtain ⟨hn, m, hm, hg⟩ := h.read v hv
    obtain ⟨k, w, hk, he, ha⟩ := key_of (h.wf m hm) hg
    refine ⟨k, w, by rw [he], abs m, List.mem_map.2 ⟨m, hm, rfl⟩, ⟨w, v.entry.expireAt⟩, ha, rfl, v.now, hn, ?_⟩
    have := (isExpired_iff v.entry v.now w)
    simp only [Bool.not_eq_true'] at hx
    rw [hx] at this
    simpa using this
  · intro k hk
    have hall := h.all hd (encKey k) (fun m hm => by
      have := hk (abs m) (List.mem_map.2 ⟨m, hm, rfl⟩)
      cases hg : m.get? (encKey k) with
      | some _ => rfl
      | none => rw [(abs_none_iff (h.wf m hm) k).2 hg] at this; cases this)
    obtain ⟨v, hv, hkey⟩ := List.mem_map.1 hall
    obtain ⟨hn, m, hm, hg⟩ := h.read v hv
    obtain ⟨k', w, hk', he, ha⟩ := key_of (h.wf m hm) hg
    rw [hkey] at hk'
    have := encKey_inj hk'
    subst this
    refine ⟨abs m, List.mem_map.2 ⟨m, hm, rfl⟩, _, ha, ?_⟩
    intro hal
    refine List.mem_map.2 ⟨v.entry, List.mem_map.2 ⟨v, List.mem_filter.2 ⟨hv, ?_⟩, rfl⟩, by rw [he]⟩
    have hnx : isExpired v.entry v.now ≠ true := by
      rw [Ne, isExpired_iff v.entry v.now w]
      simpa using hal v.now hn
    simpa using hnx

end During

open Store

/-- C124.  Streaming a data set while clients write (data/newsync.go:229-237 `StreamAll`) never fails, and once it has come to its end
it has sent a consistent selection: at most one datum per key, nothing that was not stored and alive at some moment, and nothing is
missing that was there all the time (a key that was overwritten is sent with one of its values). -/
theorem C124_stream_during_writes (m : DBMap) (hm : WF m) (now : Int64) (s : During.SS (List Datum))
    (h : During.Reach streamAllCb (During.start m now []) s) :
    s.pc ≠ .panicked ∧ (∀ err, s.pc ≠ .done (some err)) ∧
    (s.pc = .done none → Ref.Selection (s.maps.map abs) s.clocks s.acc ∧
      ∀ k v, Ref.throughout (s.maps.map abs) s.clocks k v → ⟨some k, some v⟩ ∈ s.acc) := by
  have hi := During.inv_reach hm h
  have herr : ∀ err, s.pc ≠ .done (some err) := by
    clear hi
    induction h with
    | refl => intro err he; cases he
    | step _ hd hs ih =>
      intro err he
      cases hs with
      | other m _ => exact ih err he
      | clock t => exact ih err he
      | stop _ hc => cases hc
      | _ => cases he
  refine ⟨?_, herr, ?_⟩
  · intro hp
    obtain ⟨v, _, hb⟩ := hi.bad hp
    cases hb
  · intro hd
    have hacc : s.acc = (liveEntries s.seen).map (·.datum) := by
      have h1 := hi.fed herr
      rw [feed_stream] at h1
      simp only [List.nil_append, Res.ok.injEq, Prod.mk.injEq, and_true] at h1
      exact h1.symm
    have hc := During.consistent hi hd
    rw [← hacc] at hc
    exact ⟨hc, fun k v ht => hc.stable (by simpa using hi.ne) k v ht⟩

end Veri
