import Verif.Process.Props

/-!
C100: which data maintenance offers to the peers (data/newsync.go:172-196, data/sync.go:25-36).
-/

set_option autoImplicit false

namespace Veri

open Proc Store

/-- C100, full statement, in its weakest form: for every datum that is stored and live there is at least one environment and one
execution of maintenance (sources coming and going, time passing, runs, peers accepting) after which a peer has accepted a
copy of it.  FALSE of the code for data without expiry. -/
def C100_every_datum_statement : Prop :=
  ∀ (dt : Data) (now : Int64) (k : Bytes) (e : Entry), WF0 dt.dbMap → dt.dbMap.get? k = some e → isExpired e now = false →
    ∃ P s, Reach P false (initial dt now) s ∧ ∃ a ∈ s.acks, a.item.datum = e.datum

/-- C100.  Exactly: a copy of a datum without expiry is never sent, in any environment and execution. -/
theorem C100_permanent_never_sent (P : PEnv) (dt : Data) (now : Int64) (hwf : WF0 dt.dbMap) (k : Bytes) (e : Entry)
    (hk : dt.dbMap.get? k = some e) (he : e.expireAt = 0) (s : PS) (h : Reach P false (initial dt now) s) :
    ∀ a ∈ s.acks, a.item.datum ≠ e.datum := by
  intro a ha hd
  obtain ⟨k', e', t, h1, h2, -, -, h0, -⟩ := C46_expiry_preserved P dt now hwf s h a ha
  have hkk : k' = k := by
    obtain ⟨_, -, -, a1⟩ := key_of_get? hwf h1
    obtain ⟨_, -, -, a2⟩ := key_of_get? hwf hk
    rw [h2, hd, a2] at a1
    exact (Option.some.inj a1).symm
  subst hkk
  rw [hk] at h1
  cases h1
  exact h0 he

/-- C100.  What is sent has an expiry, and when the copy was made more than ten seconds were left (64-bit arithmetic). -/
theorem C100_sent_partial (P : PEnv) (dt : Data) (now : Int64) (hwf : WF0 dt.dbMap) (s : PS)
    (h : Reach P false (initial dt now) s) (i : Inst) (hi : i ∈ s.insts) (x : Item) (hx : x ∈ i.chan) :
    ∃ k e t, dt.dbMap.get? k = some e ∧ e.datum = x.datum ∧ e.expireAt ≠ 0 ∧ t ≤ s.now ∧
      10 < e.expireAt.toUInt64 - t.toUInt64 := by
  obtain ⟨k, e, t, h1, h2, h3, h4, h5⟩ := ((mapInv_reach hwf h).inst i hi).chan x hx
  by_cases hp : e.expireAt.toUInt64 > 0
  · refine ⟨k, e, t, h1, h2, ?_, h3, ?_⟩
    · intro h0; rw [h0] at hp; exact absurd hp (by decide)
    · rw [h4] at h5
      simpa only [insertConfigFromExpireAt, hp, if_true] using h5
  · rw [h4] at h5
    simp only [insertConfigFromExpireAt, hp, if_false] at h5
    exact absurd h5 (by decide)

theorem C100_every_datum_fails : ¬ C100_every_datum_statement := by
  intro h
  obtain ⟨e, he, h0⟩ : ∃ e, (exOne 0).dbMap.get? (exK 1) = some e ∧ e.expireAt = 0 := ⟨⟨0, exD 1 1⟩, by decide +kernel, rfl⟩
  obtain ⟨P, s, hr, a, ha, hd⟩ := h (exOne 0) 1000 (exK 1) e (exOne_wf 0) he (by simp [isExpired, h0])
  exact C100_permanent_never_sent P (exOne 0) 1000 (exOne_wf 0) (exK 1) e he h0 s hr a ha hd

end Veri
