import Verif.Pool.Props
/-
C64-C67 for all interleavings.
-/
set_option autoImplicit false
namespace Veri
open Pool

/-! ### C64, in the company of other requests -/

/-- C64: in every interleaving, no request makes more than four tries; when a try gives a connection, the connection is not shut
down at that moment; and a try on a closed pool makes no connection. -/
theorem C64_interleaved {s s' : PState} (hr : Reach s) (j : Nat) (k : Pick) (h : step s (.try j k) = some s') :
    ∃ p count q, s.threads[j]? = some (.trying p count) ∧ count + 1 ≤ 4 ∧ s.pools[p]? = some q ∧
      (s'.threads[j]? = some (.trying p (count + 1)) ∨
        ∃ c x, s'.threads[j]? = some (.got p c) ∧ s'.conns[c]? = some x ∧ x.state ≠ .shutdown) ∧
      (q.closed = true → s'.conns.length = s.conns.length) := by
  simp only [step] at h
  split at h
  · rename_i p count hj
    split at h
    · cases h
    · rename_i hcount
      split at h
      · cases h
      · rename_i q hq
        refine ⟨p, count, q, hj, by omega, hq, ?_⟩
        split at h
        · cases h
        · rename_i conns1 q1 c1 ha
          cases h
          obtain ⟨r0, conns2, hf, h0⟩ := attempt_spec ha
          rcases h0 with ⟨-, h, -⟩ | ⟨c2, x, rfl, h, rfl, hx, hs⟩ | ⟨-, -, -, h, -⟩
          · cases h
          · cases h
            refine ⟨Or.inr ⟨c1, x, getElem?_set_self' hj, hx, hs⟩, ?_⟩
            intro hcl
            obtain ⟨-, hf⟩ := fetch_spec hf
            rcases hf with ⟨i, c, -, -, rfl, -⟩ | ⟨rfl, -⟩ | ⟨hp', -⟩
            · rfl
            · rfl
            · rw [hcl] at hp'; cases hp'
          · cases h
        · rename_i conns1 q1 ha
          cases h
          refine ⟨Or.inl (getElem?_set_self' hj), ?_⟩
          intro hcl
          obtain ⟨r0, conns2, hf, h0⟩ := attempt_spec ha
          have hlen : conns1.length = conns2.length := by
            rcases h0 with ⟨-, -, rfl⟩ | ⟨c', x, -, h, -⟩ | ⟨c', x, -, -, rfl, -⟩
            · rfl
            · cases h
            · exact shut_length _ _
          obtain ⟨-, hf⟩ := fetch_spec hf
          simp only [setT]
          rw [hlen]
          rcases hf with ⟨i, c, -, -, rfl, -⟩ | ⟨rfl, -⟩ | ⟨hp', -⟩
          · rfl
          · rfl
          · rw [hcl] at hp'; cases hp'
  · cases h

/-! ### C67 -/

/-- The request is in the middle of `Get` or `Put` with this connection. -/
def Pool.Busy (c : Nat) : T → Bool
  | .counted _ c' => c = c'
  | .toPut _ c' => c = c'
  | .putting _ c' => c = c'
  | _ => false

/-- C67: in every reachable state the counter of a connection is the number of requests that use it, and those that have just
incremented it or are about to decrement it. -/
theorem C67_counter {s : PState} (hr : Reach s) (c : Nat) (x : Conn) (hx : s.conns[c]? = some x) :
    x.counter = users s c + s.threads.countP (Busy c) := by
  rw [(reach_inv hr).balance c x hx]
  have : ∀ l : List T, total (inUse c) l = l.countP (Uses c) + l.countP (Busy c) := by
    intro l
    induction l with
    | nil => rfl
    | cons t l ih =>
      rw [show total (inUse c) (t :: l) = inUse c t + total (inUse c) l from rfl, ih, List.countP_cons, List.countP_cons]
      cases t <;> simp only [inUse, Uses, Busy, decide_eq_true_eq] <;> (try split) <;> simp_all <;> omega
  rw [this]
  simp [users]

/-- C67: so the two are equal whenever no request is inside `Get` or `Put` with the connection. -/
theorem C67_quiet {s : PState} (hr : Reach s) (c : Nat) (x : Conn) (hx : s.conns[c]? = some x) (hq : ∀ t ∈ s.threads, Busy c t = false) :
    x.counter = users s c := by
  rw [C67_counter hr c x hx, List.countP_eq_zero.mpr (fun t ht => by simp [hq t ht])]
  simp

namespace Pool

theorem exec_reach : ∀ (ls : List Label) {s s' : PState}, Reach s → exec s ls = some s' → Reach s'
  | [], s, s', h, he => by cases he; exact h
  | l :: ls, s, s', h, he => by
    rw [exec] at he
    cases hs : step s l with
    | none => rw [hs] at he; cases he
    | some s1 => rw [hs] at he; exact exec_reach ls (.step l h hs) he

theorem any_exec {ls : List Label} {P : PState → Bool} (h : (exec init ls).any P = true) : ∃ s, Reach s ∧ P s = true := by
  cases he : exec init ls with
  | none => rw [he] at h; cases h
  | some s => rw [he] at h; exact ⟨s, exec_reach ls .init he, h⟩

/-- A request that gets a connection as given by the picks. -/
def getRun (j : Nat) (k : Pick) : List Label := [.arrive, .go j, .try j k, .go j, .go j, .go j]

/-- The same when the connection is not put back. -/
def getRunFull (j : Nat) (k : Pick) : List Label := [.arrive, .go j, .try j k, .go j, .go j]

def putRun (j : Nat) : List Label := [.go j, .go j, .go j]

/-- Twenty-two requests, after one that was done with the connection. -/
def crowd : List Label :=
  getRun 0 (.new true) ++ [.net 0 .ready] ++ putRun 0 ++ ((List.range 20).map fun i => getRun (i + 1) (.item 0)).flatten ++
  getRunFull 21 (.item 0) ++ getRunFull 22 (.item 0)

end Pool

example : ∃ s, Reach s ∧ ∃ x, s.conns[0]? = some x ∧ x.counter = 2 ∧ users s 0 = 2 ∧ ∀ t ∈ s.threads, Busy 0 t = false := by
  obtain ⟨s, h1, h2⟩ := any_exec (ls := getRun 0 (.new true) ++ getRun 1 (.item 0)) (P := fun (s : PState) =>
    decide (s.conns[0]? = some (⟨.idle, 2, 0⟩ : Conn) ∧ users s 0 = 2 ∧ ∀ t ∈ s.threads, Busy 0 t = false)) (by decide +kernel)
  obtain ⟨h3, h4, h5⟩ := of_decide_eq_true h2
  exact ⟨s, h1, _, h3, rfl, h4, h5⟩

/-! ### C65 -/

/-- C65, full statement. -/
def C65_statement : Prop := ∀ s, Reach s → ∀ c, users s c ≤ 21

/-- A request that is done puts a second copy of the connection into the pool; with two copies a twenty-second request gets
it. -/
theorem C65_fails : ¬ C65_statement := by
  intro h
  obtain ⟨s, h1, h2⟩ := any_exec (ls := crowd) (P := fun (s : PState) => decide (users s 0 = 22)) (by decide +kernel)
  have := h s h1 0
  rw [of_decide_eq_true h2] at this
  omega

/-- C65, the part that holds: at most 21 requests, and one more for each time a request gave the connection back. -/
theorem C65_partial {s : PState} (hr : Reach s) (c : Nat) (x : Conn) (hx : s.conns[c]? = some x) : users s c ≤ 21 + x.returned := by
  have hi := reach_inv hr
  obtain ⟨lost, h1, h2⟩ := hi.tokens c x hx
  have h3 := C67_counter hr c x hx
  have h4 : total (undecided c) s.threads ≤ total (inHand c) s.threads := by
    have : ∀ l : List T, total (undecided c) l ≤ total (inHand c) l := by
      intro l
      induction l with
      | nil => exact Nat.le_refl _
      | cons t l ih =>
        rw [show total (undecided c) (t :: l) = undecided c t + total (undecided c) l from rfl,
          show total (inHand c) (t :: l) = inHand c t + total (inHand c) l from rfl]
        have : undecided c t ≤ inHand c t := by cases t <;> simp [undecided, inHand]
        omega
    exact this _
  omega

/-- C65: in particular no more than 21 until the first one gives it back. -/
theorem C65_first_partial {s : PState} (hr : Reach s) (c : Nat) (x : Conn) (hx : s.conns[c]? = some x) (h0 : x.returned = 0) :
    users s c ≤ 21 := by
  have := C65_partial hr c x hx
  omega

example : ∃ s, Reach s ∧ ∃ x, s.conns[0]? = some x ∧ x.returned = 0 ∧ users s 0 = 21 := by
  obtain ⟨s, h1, h2⟩ := any_exec
    (ls := getRun 0 (.new true) ++ ((List.range 19).map fun i => getRun (i + 1) (.item 0)).flatten ++ getRunFull 20 (.item 0))
    (P := fun (s : PState) => decide (s.conns[0]? = some (⟨.idle, 21, 0⟩ : Conn) ∧ users s 0 = 21)) (by decide +kernel)
  obtain ⟨h3, h4⟩ := of_decide_eq_true h2
  exact ⟨s, h1, _, h3, rfl, h4⟩

/-! ### C66 -/

/-- C66, full statement: when a request gives a connection back, that does not shut it down while another one uses it. -/
def C66_statement : Prop := ∀ s s', Reach s → ∀ j p c, s.threads[j]? = some (.returning p c) → step s (.go j) = some s' →
  ∀ x x', s.conns[c]? = some x → x.state ≠ .shutdown → s'.conns[c]? = some x' → users s c > 0 → x'.state ≠ .shutdown

/-- Two requests share a connection that has lost its link; the first one to finish closes it. -/
theorem C66_fails : ¬ C66_statement := by
  intro h
  obtain ⟨s, h1, h2⟩ := any_exec
    (ls := getRun 0 (.new true) ++ [.net 0 .ready] ++ getRun 1 (.item 0) ++ [.net 0 .transientFailure, .go 0, .go 0])
    (P := fun (s : PState) => decide (s.threads[0]? = some (T.returning 0 0) ∧ s.conns[0]? = some (⟨.transientFailure, 1, 0⟩ : Conn) ∧ users s 0 = 1 ∧
      ((step s (.go 0)).bind fun s' => s'.conns[0]?) = some (⟨.shutdown, 1, 0⟩ : Conn))) (by decide +kernel)
  obtain ⟨h3, h4, h5, h6⟩ := of_decide_eq_true h2
  obtain ⟨s', hs', hx'⟩ := Option.bind_eq_some_iff.mp h6
  exact h s s' h1 0 0 0 h3 hs' _ _ h4 (by simp) hx' (by omega) rfl

/-- C66, exactly: giving it back closes the connection if and only if it is not ready at that moment, whoever else uses it. -/
theorem C66_exact {s s' : PState} (j p c : Nat) (hj : s.threads[j]? = some (.returning p c)) (h : step s (.go j) = some s')
    (x x' : Conn) (hx : s.conns[c]? = some x) (hx' : s'.conns[c]? = some x') :
    x'.state = .shutdown ↔ x.state ≠ .ready := by
  simp only [step, hj, hx] at h
  split at h
  · rename_i hs
    obtain ⟨s1, h1, rfl⟩ := Option.map_eq_some_iff.mp h
    obtain ⟨q, hq, rfl⟩ := poolPut_some h1
    simp only [setT] at hx'
    rw [getElem?_set_self' hx] at hx'
    cases hx'
    simp [hs]
  · rename_i hs
    cases h
    simp only [setT, shut, hx] at hx'
    rw [getElem?_set_self' hx] at hx'
    cases hx'
    simp [hs]

/-- C66, the part that holds: a connection that is ready when a request gives it back stays open for the others, and no other
connection is touched. -/
theorem C66_partial {s s' : PState} (j p c : Nat) (hj : s.threads[j]? = some (.returning p c)) (h : step s (.go j) = some s')
    (c' : Nat) (x x' : Conn) (hx : s.conns[c']? = some x) (hx' : s'.conns[c']? = some x') (hr : c' = c → x.state = .ready) :
    x'.state = x.state := by
  by_cases hc : c' = c
  · subst hc
    simp only [step, hj, hx] at h
    rw [if_pos (hr rfl)] at h
    obtain ⟨s1, h1, rfl⟩ := Option.map_eq_some_iff.mp h
    obtain ⟨q, hq, rfl⟩ := poolPut_some h1
    simp only [setT] at hx'
    rw [getElem?_set_self' hx] at hx'
    cases hx'
    rfl
  · simp only [step, hj] at h
    split at h
    · rename_i y hy
      split at h
      · obtain ⟨s1, h1, rfl⟩ := Option.map_eq_some_iff.mp h
        obtain ⟨q, hq, rfl⟩ := poolPut_some h1
        simp only [setT] at hx'
        rw [List.getElem?_set_ne (fun e => hc e.symm), hx] at hx'
        cases hx'; rfl
      · cases h
        simp only [setT, shut, hy] at hx'
        rw [List.getElem?_set_ne (fun e => hc e.symm), hx] at hx'
        cases hx'; rfl
    · cases h

example : ∃ s, Reach s ∧ s.threads[0]? = some (.returning 0 0) ∧ s.conns[0]? = some ⟨.ready, 1, 0⟩ ∧ users s 0 = 1 := by
  obtain ⟨s, h1, h2⟩ := any_exec
    (ls := getRun 0 (.new true) ++ [.net 0 .ready] ++ getRun 1 (.item 0) ++ [.go 0, .go 0])
    (P := fun (s : PState) => decide (s.threads[0]? = some (T.returning 0 0) ∧ s.conns[0]? = some (⟨.ready, 1, 0⟩ : Conn) ∧ users s 0 = 1)) (by decide +kernel)
  exact ⟨s, h1, of_decide_eq_true h2⟩

/-! ### Dropping a pool -/

/-- Full statement: dropping a pool from the cache of pools does not shut down a connection that a request uses. -/
def C82_statement : Prop := ∀ s s', Reach s → ∀ j k, step s (.close j k) = some s' →
  ∀ (c : Nat) (x x' : Conn), s.conns[c]? = some x → x.state ≠ .shutdown → s'.conns[c]? = some x' → users s c > 0 → x'.state ≠ .shutdown

/-- The copies in the pool are those of connections in use. -/
theorem C82_fails : ¬ C82_statement := by
  intro h
  obtain ⟨s, h1, h2⟩ := any_exec (ls := getRun 0 (.new true) ++ [.net 0 .ready, .evict true, .go 1])
    (P := fun (s : PState) => decide (s.conns[0]? = some (⟨.ready, 1, 0⟩ : Conn) ∧ users s 0 = 1 ∧
      ((step s (.close 1 (.item 0))).bind fun s' => s'.conns[0]?) = some (⟨.shutdown, 1, 0⟩ : Conn))) (by decide +kernel)
  obtain ⟨h4, h5, h6⟩ := of_decide_eq_true h2
  obtain ⟨s', hs', hx'⟩ := Option.bind_eq_some_iff.mp h6
  exact h s s' h1 1 (.item 0) hs' 0 _ _ h4 (by simp) hx' (by omega) rfl

/-- The part that holds: only connections with a copy in that pool are shut down, each turn at most one; the requests' counters
are not touched. -/
theorem C82_partial {s s' : PState} (j : Nat) (k : Pick) (h : step s (.close j k) = some s') (c : Nat) (x x' : Conn)
    (hx : s.conns[c]? = some x) (hx' : s'.conns[c]? = some x') :
    x'.counter = x.counter ∧ (x'.state ≠ x.state → ∃ p left q, s.threads[j]? = some (.closing p (left + 1)) ∧ s.pools[p]? = some q ∧ c ∈ q.content) := by
  simp only [step] at h
  split at h
  · rename_i p left hj
    split at h
    · cases h
    · rename_i q hq
      have hlt := (List.getElem?_eq_some_iff.mp hx).1
      split at h
      · cases h
      · rename_i conns1 q1 c1 hf
        cases h
        simp only [setT] at hx'
        obtain ⟨-, hf⟩ := fetch_spec hf
        have hx1 : conns1[c]? = some x := by
          rcases hf with ⟨i, c2, -, -, rfl, -⟩ | ⟨rfl, -⟩ | ⟨-, rfl, -⟩
          · exact hx
          · exact hx
          · rw [List.getElem?_append_left hlt]; exact hx
        obtain ⟨y, hy, e1, -⟩ := shut_get hx'
        rw [hx1] at hy
        cases hy
        refine ⟨e1, ?_⟩
        intro hne
        by_cases hc : c = c1
        · subst hc
          rcases hf with ⟨i, c2, -, hi, -, -, h⟩ | ⟨-, -, h⟩ | ⟨-, -, -, h⟩
          · cases h; exact ⟨p, left, q, hj, hq, List.mem_of_getElem? hi⟩
          · cases h
          · cases h; omega
        · exfalso
          apply hne
          unfold shut at hx'
          split at hx'
          · rw [List.getElem?_set_ne (fun e => hc e.symm), hx1] at hx'
            cases hx'; rfl
          · rw [hx1] at hx'; cases hx'; rfl
      · rename_i conns1 q1 hf
        cases h
        simp only [setT] at hx'
        obtain ⟨-, hf⟩ := fetch_spec hf
        have hx1 : conns1[c]? = some x := by
          rcases hf with ⟨i, c2, -, -, rfl, -⟩ | ⟨rfl, -⟩ | ⟨-, rfl, -⟩
          · exact hx
          · exact hx
          · rw [List.getElem?_append_left hlt]; exact hx
        rw [hx1] at hx'
        cases hx'
        exact ⟨rfl, fun h => absurd rfl h⟩
  · cases h

example : ∃ s, Reach s ∧ s.threads[1]? = some (.closing 0 (999 + 1)) ∧ s.conns[0]? = some ⟨.ready, 1, 0⟩ ∧ (step s (.close 1 (.item 0))).isSome := by
  obtain ⟨s, h1, h2⟩ := any_exec (ls := getRun 0 (.new true) ++ [.net 0 .ready, .evict true, .go 1])
    (P := fun (s : PState) => decide (s.threads[1]? = some (T.closing 0 (999 + 1)) ∧ s.conns[0]? = some (⟨.ready, 1, 0⟩ : Conn) ∧
      (step s (.close 1 (.item 0))).isSome)) (by decide +kernel)
  exact ⟨s, h1, of_decide_eq_true h2⟩

end Veri
