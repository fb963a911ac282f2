import Verif.Store.Props
/-
C38, C83: the data stream of a node, node/nodeservice.go:80-104.
-/
set_option autoImplicit false
namespace Veri
namespace DStr
open Store

/-- Where the handler is. -/
inductive H where
  /-- in `StreamAll`, line 93 -/
  | scan
  /-- the loop of line 98, about to receive -/
  | drain
  /-- line 100 -/
  | flush (d : Datum)
  | returned
  deriving DecidableEq, Repr

/-- Where the goroutine of lines 87-92 is. -/
inductive G where
  | idle
  /-- line 90 -/
  | sending (d : Datum)
  | over
  deriving DecidableEq, Repr

structure S where
  /-- what the scan has not visited yet -/
  rest : List Visit
  store : DBMap
  /-- the channel of line 86 -/
  buf : List Datum
  h : H
  g : G
  /-- what was given to the stream before the handler returned -/
  delivered : List Datum
  /-- what was given to the stream afterwards; this never reaches the client -/
  late : List Datum
  deriving Repr

/-- The capacity of line 86. -/
def cap : Nat := 100

/-- Line 93 begins. -/
def start (vs : List Visit) (m : DBMap) : S := ⟨vs, m, [], .scan, .idle, [], []⟩

/-- A step of the handler (`true`) or of the goroutine (`false`); `none`: blocked or over.  `Send` is one step and does not
fail before the handler returns. -/
def step (s : S) : Bool → Option S
  | true =>
    match s.h with
    | .scan =>
      match s.rest with
      | [] => some { s with h := .drain }
      | v :: vs =>
        if isExpired v.entry v.now then some { s with rest := vs, store := s.store.erase v.key }
        else if s.buf.length < cap then some { s with rest := vs, buf := s.buf ++ [v.entry.datum] }
        else none
    | .drain =>
      match s.buf with
      | [] => some { s with h := .returned }
      | d :: b => some { s with buf := b, h := .flush d }
    | .flush d => some { s with h := .drain, delivered := s.delivered ++ [d] }
    | .returned => none
  | false =>
    match s.g with
    | .idle =>
      match s.buf with
      | [] => if s.h = .scan then none else some { s with g := .over }
      | d :: b => some { s with buf := b, g := .sending d }
    | .sending d =>
      if s.h = .returned then some { s with g := .idle, late := s.late ++ [d] }
      else some { s with g := .idle, delivered := s.delivered ++ [d] }
    | .over => none

def exec (s : S) : List Bool → Option S
  | [] => some s
  | b :: bs => (step s b).bind fun s => exec s bs

/-! ### The invariant -/

def heldH : H → List Datum
  | .flush d => [d]
  | _ => []

def heldG : G → List Datum
  | .sending d => [d]
  | _ => []

/-- Everything the scan has found or will find. -/
def all (s : S) : List Datum :=
  s.delivered ++ (s.late ++ (heldH s.h ++ (heldG s.g ++ (s.buf ++ (liveEntries s.rest).map (·.datum)))))

structure Inv (vs : List Visit) (s : S) : Prop where
  perm : (all s).Perm ((liveEntries vs).map (·.datum))
  ended : s.h ≠ .scan → s.rest = []
  empty : s.h = .returned → s.buf = []
  late : s.late.length + (heldG s.g).length ≤ 1
  none : s.h ≠ .returned → s.late = []
  over : s.g = .over → s.h ≠ .scan

theorem inv_start (vs : List Visit) (m : DBMap) : Inv vs (start vs m) := by
  constructor <;> simp [start, all, heldH, heldG]

theorem live_cons (v : Visit) (vs : List Visit) : liveEntries (v :: vs) = if isExpired v.entry v.now then liveEntries vs else v.entry :: liveEntries vs := by
  unfold liveEntries
  rw [List.filter_cons]
  cases isExpired v.entry v.now <;> simp

theorem inv_step {vs : List Visit} {s s' : S} {b : Bool} (hi : Inv vs s) (h : step s b = some s') : Inv vs s' := by
  have hp := hi.perm
  have h1 := hi.ended
  have h2 := hi.empty
  have h3 := hi.late
  have h4 := hi.none
  have h5 := hi.over
  cases b with
  | true =>
    simp only [step] at h
    split at h
    · rename_i hh
      split at h
      · rename_i hr
        cases h
        refine ⟨?_, fun _ => hr, by simp, h3, fun _ => h4 (by simp [hh]), by simp⟩
        simpa [all, heldH, hh] using hp
      · rename_i v vs' hr
        split at h
        · rename_i he
          cases h
          refine ⟨?_, fun hc => absurd hh hc, fun hc => absurd (hh.symm.trans hc) (by simp), h3, h4, h5⟩
          simpa [all, hr, live_cons, he] using hp
        · rename_i he
          split at h
          · cases h
            refine ⟨?_, fun hc => absurd hh hc, fun hc => absurd (hh.symm.trans hc) (by simp), h3, h4, h5⟩
            simpa [all, hr, live_cons, he] using hp
          · cases h
    · rename_i hh
      have hr := h1 (by simp [hh])
      split at h
      · rename_i hb
        cases h
        refine ⟨?_, fun _ => hr, fun _ => hb, h3, by simp, by simp⟩
        simpa [all, heldH, hh] using hp
      · rename_i d b' hb
        cases h
        refine ⟨?_, fun _ => hr, by simp, h3, fun _ => h4 (by simp [hh]), by simp⟩
        refine List.Perm.trans ?_ hp
        simp only [all, heldH, hh, hb, List.nil_append]
        refine (List.perm_append_left_iff _).mpr ((List.perm_append_left_iff _).mpr ?_)
        simp only [List.cons_append, List.nil_append]
        exact List.perm_middle.symm
    · rename_i d hh
      have hr := h1 (by simp [hh])
      cases h
      refine ⟨?_, fun _ => hr, by simp, h3, fun _ => h4 (by simp [hh]), by simp⟩
      have hl := h4 (by simp [hh])
      simpa [all, heldH, hh, hl] using hp
    · cases h
  | false =>
    simp only [step] at h
    split at h
    · rename_i hg
      rw [hg] at h3
      split at h
      · rename_i hb
        split at h
        · cases h
        · rename_i hh
          cases h
          refine ⟨?_, h1, h2, h3, h4, fun _ => hh⟩
          simpa [all, heldG, hg] using hp
      · rename_i d b' hb
        cases h
        have hl : s.late = [] := by
          apply h4
          intro hc
          rw [h2 hc] at hb
          cases hb
        refine ⟨?_, h1, fun hc => ?_, by simp [hl, heldG], h4, by simp⟩
        · simpa [all, heldG, hg, hb] using hp
        · rw [h2 hc] at hb; cases hb
    · rename_i d hg
      rw [hg] at h3
      have hl : s.late = [] := by
        cases hs : s.late with
        | nil => rfl
        | cons a l => rw [hs] at h3; simp [heldG] at h3
      split at h
      · rename_i hh
        cases h
        refine ⟨?_, h1, h2, by simp [hl, heldG], fun hc => absurd hh hc, by simp⟩
        simpa [all, heldG, hg, hh, heldH, hl] using hp
      · rename_i hh
        cases h
        refine ⟨?_, h1, h2, by simp [hl, heldG], h4, by simp⟩
        refine List.Perm.trans ?_ hp
        simp only [all, heldG, hg, hl, List.append_assoc, List.nil_append]
        refine (List.perm_append_left_iff _).mpr ?_
        simp only [List.cons_append, List.nil_append]
        exact List.perm_middle.symm
    · cases h

theorem inv_exec {vs : List Visit} : ∀ (bs : List Bool) {s s' : S}, Inv vs s → exec s bs = some s' → Inv vs s'
  | [], _, _, hi, h => by cases h; exact hi
  | b :: bs, s, s', hi, h => by
    rw [exec] at h
    cases hs : step s b with
    | none => rw [hs] at h; cases h
    | some s1 => rw [hs] at h; exact inv_exec bs (inv_step hi hs) h

end DStr

open DStr Store

/-- The list is what the reference map `r` has at the clock values `clock`: each live datum exactly once, nothing else. -/
def DStr.Complete (r : Ref.RefMap) (clock : DatumKey → Int64) (l : List Datum) : Prop :=
  (l.map (·.key)).Nodup ∧ (∀ d ∈ l, ∃ k v, d = ⟨some k, some v⟩) ∧ ∀ k v, (⟨some k, some v⟩ : Datum) ∈ l ↔ Ref.shows r clock k v

/-- C38, full statement: after any history `ops` of the data set, under every schedule of the handler and its goroutine, when
the handler returns the client has been sent each live datum exactly once. -/
def C38_statement : Prop := ∀ (ops : List Op) (m : DBMap) (vs : List Visit) (clock : DatumKey → Int64) (sched : List Bool) (s : S),
  Steps [] ops m → IsRange m vs → (∀ v ∈ vs, ∀ k, v.entry.datum.key = some k → v.now = clock k) →
  exec (start vs m) sched = some s → s.h = .returned → Complete (refRun Ref.empty ops) clock s.delivered

namespace DStr

def dsMap : DBMap := [(Gencoder.encKey (exKey 1), ⟨0, ⟨some (exKey 1), some (exVal 1)⟩⟩)]
def dsVisits : List Visit := [⟨Gencoder.encKey (exKey 1), ⟨0, ⟨some (exKey 1), some (exVal 1)⟩⟩, 1000⟩]
def dsOps : List Op := [.insert 1000 (exKey 1) (exVal 1) none]

theorem dsSteps : Steps [] dsOps dsMap := .cons (.insert (insert_empty _ _ _ _)) .nil

end DStr

/-- One datum; the goroutine has taken it from the channel, and has not sent it yet when the handler returns. -/
theorem C38_fails : ¬ C38_statement := by
  intro h
  have := h dsOps dsMap dsVisits (fun _ => 1000) [true, true, false, true] _ dsSteps (List.Perm.refl _)
    (by simp [dsVisits]) rfl rfl
  have h2 := (this.2.2 (exKey 1) (exVal 1)).mpr ⟨⟨exVal 1, 0⟩, rfl, Or.inl rfl, rfl⟩
  cases h2

/-- C38, the part that holds: when the handler returns, at most one datum is missing, the one the goroutine holds; the rest was
delivered, each live datum once, nothing else. -/
theorem C38_partial (ops : List Op) (m : DBMap) (vs : List Visit) (clock : DatumKey → Int64) (sched : List Bool) (s : S)
    (h : Steps [] ops m) (hr : IsRange m vs) (hc : ∀ v ∈ vs, ∀ k, v.entry.datum.key = some k → v.now = clock k)
    (he : exec (start vs m) sched = some s) (hh : s.h = .returned) :
    ∃ lost : List Datum, lost.length ≤ 1 ∧ Complete (refRun Ref.empty ops) clock (s.delivered ++ lost) ∧
      ∀ d ∈ lost, s.g = .sending d ∨ d ∈ s.late := by
  have hi := inv_exec sched (inv_start vs m) he
  obtain ⟨h1, h2, h3, -⟩ := C08_store_refines_reference ops m _ clock _ h (.scan hr hc (streamAll_eq vs m))
  have hb := hi.empty hh
  have hrest := hi.ended (by simp [hh])
  have hp : (s.delivered ++ (s.late ++ heldG s.g)).Perm ((liveEntries vs).map (·.datum)) := by
    have := hi.perm
    simpa [all, hh, heldH, hb, hrest, liveEntries] using this
  refine ⟨s.late ++ heldG s.g, by simpa using hi.late, ⟨?_, ?_, ?_⟩, ?_⟩
  · exact (hp.map (·.key)).nodup_iff.mpr h1
  · intro d hd
    exact h2 d (hp.mem_iff.mp hd)
  · intro k v
    rw [hp.mem_iff]
    exact h3 k v
  · intro d hd
    rcases List.mem_append.mp hd with hd | hd
    · exact Or.inr hd
    · left
      cases hg : s.g with
      | idle => rw [hg] at hd; cases hd
      | over => rw [hg] at hd; cases hd
      | sending d' =>
        rw [hg] at hd
        rw [List.mem_singleton.mp hd]

/-- C38, the part that holds: if the goroutine is not sending when the handler returns, everything was delivered. -/
theorem C38_quiet_partial (ops : List Op) (m : DBMap) (vs : List Visit) (clock : DatumKey → Int64) (sched : List Bool) (s0 s : S)
    (h : Steps [] ops m) (hr : IsRange m vs) (hc : ∀ v ∈ vs, ∀ k, v.entry.datum.key = some k → v.now = clock k)
    (he : exec (start vs m) sched = some s0) (h0 : s0.h ≠ .returned) (hs : step s0 true = some s) (hh : s.h = .returned) (hg : ∀ d, s.g ≠ .sending d) :
    Complete (refRun Ref.empty ops) clock s.delivered := by
  have hl : s.late = [] := by
    have := (inv_exec sched (inv_start vs m) he).none h0
    simp only [step] at hs
    split at hs
    · split at hs
      · cases hs; exact this
      · split at hs
        · cases hs; exact this
        · split at hs <;> cases hs
          exact this
    · split at hs <;> cases hs <;> exact this
    · cases hs; exact this
    · cases hs
  have he' : exec (start vs m) (sched ++ [true]) = some s := by
    have : ∀ (l : List Bool) (x : S), exec x l = some s0 → exec x (l ++ [true]) = some s := by
      intro l
      induction l with
      | nil => intro x hx; cases hx; simp [exec, hs]
      | cons b l ih =>
        intro x hx
        rw [exec] at hx
        rw [List.cons_append, exec]
        cases hb : step x b with
        | none => rw [hb] at hx; cases hx
        | some y => rw [hb] at hx; exact ih y hx
    exact this sched _ he
  obtain ⟨lost, h1, h2, h4⟩ := C38_partial ops m vs clock _ s h hr hc he' hh
  have : lost = [] := by
    cases hl' : lost with
    | nil => rfl
    | cons d l =>
      rcases h4 d (by simp [hl']) with h5 | h5
      · exact absurd h5 (hg d)
      · rw [hl] at h5; cases h5
  rw [this, List.append_nil] at h2
  exact h2

namespace DStr

/-- The steps that are left. -/
def work (s : S) : Nat :=
  4 * s.rest.length + 3 * s.buf.length + (heldH s.h).length + (heldG s.g).length * 2 +
  (match s.h with | .scan => 2 | .drain => 1 | .flush _ => 1 | .returned => 0) + (match s.g with | .over => 0 | _ => 1)

theorem work_step {s s' : S} {b : Bool} (h : step s b = some s') : work s' < work s := by
  cases b with
  | true =>
    simp only [step] at h
    split at h
    · rename_i hh
      split at h
      · cases h; simp [work, hh, heldH]
      · rename_i hr
        split at h
        · cases h; simp [work, hh, heldH, hr]
        · split at h <;> cases h
          simp [work, hh, heldH, hr]; omega
    · rename_i hh
      split at h
      · cases h; simp [work, hh, heldH]
      · rename_i hb; cases h; simp [work, hh, heldH, hb]; omega
    · rename_i hh; cases h; simp [work, hh, heldH]
    · cases h
  | false =>
    simp only [step] at h
    split at h
    · rename_i hg
      split at h
      · split at h
        · cases h
        · cases h; simp [work, hg, heldG]
      · rename_i hb; cases h; simp [work, hg, heldG, hb]; omega
    · rename_i hg
      split at h <;> cases h <;> simp [work, hg, heldG]
    · cases h

theorem work_exec : ∀ (l : List Bool) {x y : S}, exec x l = some y → l.length + work y ≤ work x
  | [], x, y, h => by cases h; simp
  | b :: l, x, y, h => by
    rw [exec] at h
    cases hb : step x b with
    | none => rw [hb] at h; cases h
    | some z =>
      rw [hb] at h
      have h1 := work_exec l h
      have h2 := work_step hb
      simp only [List.length_cons]
      omega

end DStr

/-- C38: the stream always ends: every schedule is finite, and until the handler has returned there is a step to make. -/
theorem C38_ends (m : DBMap) (vs : List Visit) (sched : List Bool) (s : S) (he : exec (start vs m) sched = some s) :
    sched.length ≤ 4 * vs.length + 3 ∧ (s.h ≠ .returned → ∃ b, (step s b).isSome) := by
  have hi := inv_exec sched (inv_start vs m) he
  constructor
  · have h1 := work_exec sched he
    simp [work, start, heldH, heldG] at h1
    omega
  · intro hh
    cases hs : s.h with
    | returned => exact absurd hs hh
    | flush d => exact ⟨true, by simp [step, hs]⟩
    | drain =>
      refine ⟨true, ?_⟩
      simp only [step, hs]
      split <;> simp
    | scan =>
      by_cases hb : s.buf.length < cap
      · refine ⟨true, ?_⟩
        simp only [step, hs]
        split
        · simp
        · split
          · simp
          · simp [hb]
      · refine ⟨false, ?_⟩
        simp only [step]
        split
        · split
          · rename_i e
            rw [e] at hb
            exact absurd hb (by decide)
          · simp
        · split <;> simp
        · rename_i hg
          exact absurd hs (hi.over hg)

/-- The hypotheses are met: a run in which everything arrives, and one in which the goroutine keeps a datum. -/
example : ∃ s, exec (start dsVisits dsMap) [true, true, true, true, true] = some s ∧ s.h = .returned ∧ s.g = .idle ∧ s.delivered.length = 1 ∧
    Steps [] dsOps dsMap ∧ IsRange dsMap dsVisits := ⟨_, rfl, rfl, rfl, rfl, dsSteps, List.Perm.refl _⟩

/-! ### C83 -/

/-- C83, full statement: never are two calls of `Send` on the stream under way at once, and none after the handler has returned
(gRPC allows neither). -/
def C83_statement : Prop := ∀ (vs : List Visit) (m : DBMap) (sched : List Bool) (s : S), exec (start vs m) sched = some s →
  ∀ d, s.g = .sending d → s.h ≠ .returned ∧ ∀ d', s.h ≠ .flush d'

/-- Two data, one in the hands of the goroutine, the other in those of the handler. -/
theorem C83_fails : ¬ C83_statement := by
  intro h
  exact (h (dsVisits ++ dsVisits) dsMap [true, true, true, false, true] _ rfl _ rfl).2 _ rfl

/-- C83, the part that holds, under every schedule: while the scan runs the goroutine alone sends; with at most one live datum
two calls never overlap; at most one call is made or still under way after the handler has returned. -/
theorem C83_partial (vs : List Visit) (m : DBMap) (sched : List Bool) (s : S) (he : exec (start vs m) sched = some s) :
    (s.h = .scan → ∀ b s', step s b = some s' → s'.delivered ≠ s.delivered → b = false) ∧
    ((liveEntries vs).length ≤ 1 → ∀ d d', ¬ (s.g = .sending d ∧ s.h = .flush d')) ∧
    s.late.length + (heldG s.g).length ≤ 1 := by
  have hi := inv_exec sched (inv_start vs m) he
  refine ⟨?_, ?_, hi.late⟩
  · intro h b s' hs hd
    cases b with
    | false => rfl
    | true =>
      simp only [step, h] at hs
      split at hs
      · cases hs; exact absurd rfl hd
      · split at hs
        · cases hs; exact absurd rfl hd
        · split at hs <;> cases hs
          exact absurd rfl hd
  · intro hl d d' hh
    have := hi.perm.length_eq
    simp only [all, heldH, heldG, hh.1, hh.2, List.length_append, List.length_map, List.length_cons, List.length_nil] at this
    omega

example : ∃ s, exec (start dsVisits dsMap) [true, false, true, true, false] = some s ∧ s.h = .returned ∧ s.late.length = 1 := ⟨_, rfl, rfl, rfl⟩

end Veri
