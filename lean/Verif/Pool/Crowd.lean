import Verif.Pool.Kept

/-!
# How many can share a connection (C65)

`C65_partial` bounds the number of requests that have a connection at the same time by 21 and the number of times it was given
back.  Here: that many are reached, for every such number.
-/

set_option autoImplicit false

namespace Veri

open Pool

namespace Pool

/-- A request gets the connection, which stays in the pool for others. -/
theorem get_exec (k m r : Nat) (hk : k < 20) (ts : List T) :
    exec ⟨[⟨.ready, k, r⟩], [⟨0 :: List.replicate m 0, false⟩], some 0, ts⟩ (getRun ts.length (.item 0)) =
      some ⟨[⟨.ready, k + 1, r⟩], [⟨0 :: List.replicate m 0, false⟩], some 0, ts ++ [.holding 0]⟩ := by
  have hr : List.replicate m 0 ++ [0] = 0 :: List.replicate m 0 := by
    rw [← List.replicate_succ, ← List.replicate_succ']
  have h20 : (k : Int) + 1 ≤ 20 := by omega
  simp [getRun, exec, step, provider, setT, attempt, fetch, setCounter, poolPut, hr, h20]

/-- The connection has twenty users or more: the next one takes its entry away. -/
theorem take_exec (k m r : Nat) (hk : 20 ≤ k) (ts : List T) :
    exec ⟨[⟨.ready, k, r⟩], [⟨0 :: List.replicate m 0, false⟩], some 0, ts⟩ (getRunFull ts.length (.item 0)) =
      some ⟨[⟨.ready, k + 1, r⟩], [⟨List.replicate m 0, false⟩], some 0, ts ++ [.holding 0]⟩ := by
  have h20 : ¬ (k : Int) + 1 ≤ 20 := by omega
  simp [getRunFull, exec, step, provider, setT, attempt, fetch, setCounter, poolPut, h20]

/-- Requests one after the other, each of which finds fewer than twenty users. -/
def gets : Nat → Nat → List Label
  | _, 0 => []
  | j, n + 1 => getRun j (.item 0) ++ gets (j + 1) n

/-- Requests one after the other, each of which finds twenty users or more. -/
def takes : Nat → Nat → List Label
  | _, 0 => []
  | j, n + 1 => getRunFull j (.item 0) ++ takes (j + 1) n

theorem gets_exec : ∀ (n k m r : Nat) (ts : List T), k + n ≤ 20 →
    exec ⟨[⟨.ready, k, r⟩], [⟨0 :: List.replicate m 0, false⟩], some 0, ts⟩ (gets ts.length n) =
      some ⟨[⟨.ready, (k + n : Nat), r⟩], [⟨0 :: List.replicate m 0, false⟩], some 0, ts ++ List.replicate n (.holding 0)⟩
  | 0, k, m, r, ts, _ => by simp [gets, exec]
  | n + 1, k, m, r, ts, h => by
    have := gets_exec n (k + 1) m r (ts ++ [.holding 0]) (by omega)
    rw [List.length_append, List.length_singleton] at this
    rw [gets, exec_append, get_exec k m r (by omega), Option.bind_some]
    refine Eq.trans this ?_
    rw [show k + 1 + n = k + (n + 1) by omega, List.append_assoc, List.singleton_append]
    rfl

theorem takes_exec : ∀ (n k r : Nat) (ts : List T), 20 ≤ k →
    exec ⟨[⟨.ready, k, r⟩], [⟨List.replicate n 0, false⟩], some 0, ts⟩ (takes ts.length n) =
      some ⟨[⟨.ready, (k + n : Nat), r⟩], [⟨[], false⟩], some 0, ts ++ List.replicate n (.holding 0)⟩
  | 0, k, r, ts, _ => by simp [takes, exec]
  | n + 1, k, r, ts, h => by
    have := takes_exec n (k + 1) r (ts ++ [.holding 0]) (by omega)
    rw [List.length_append, List.length_singleton] at this
    rw [takes, exec_append, List.replicate_succ, take_exec k n r h, Option.bind_some]
    refine Eq.trans this ?_
    rw [show k + 1 + n = k + (n + 1) by omega, List.append_assoc, List.singleton_append, ← List.replicate_succ]

end Pool

/-- C65: the bound of `C65_partial` is reached, however often the connection has been given back; so there is no bound on the
number of requests that have a connection at the same time. -/
theorem C65_reached (r : Nat) (hr : 0 < r) :
    ∃ s : PState, Reach s ∧ ∃ x : Conn, s.conns[0]? = some x ∧ x.returned = r ∧ users s 0 = 21 + x.returned := by
  obtain ⟨n, rfl⟩ : ∃ n, r = n + 1 := ⟨r - 1, by omega⟩
  have h1 := C180_grows n
  have h2 := gets_exec 20 0 (n + 1) (n + 1) (List.replicate (n + 1) .done) (by omega)
  have h3 := takes_exec (n + 2) 20 (n + 1) (List.replicate (n + 1) .done ++ List.replicate 20 (.holding 0)) (by omega)
  rw [← List.replicate_succ] at h2
  have h4 := exec_append (first ++ uses 1 n) (gets (List.replicate (n + 1) T.done).length 20 ++
    takes (List.replicate (n + 1) T.done ++ List.replicate 20 (T.holding 0)).length (n + 2)) init
  have h5 : exec init (first ++ uses 1 n ++ (gets (List.replicate (n + 1) T.done).length 20 ++
      takes (List.replicate (n + 1) T.done ++ List.replicate 20 (T.holding 0)).length (n + 2))) =
      some ⟨[⟨.ready, (20 + (n + 2) : Nat), n + 1⟩], [⟨[], false⟩], some 0,
        List.replicate (n + 1) .done ++ List.replicate 20 (.holding 0) ++ List.replicate (n + 2) (.holding 0)⟩ := by
    rw [h4, h1, Option.bind_some, exec_append]
    refine Eq.trans (congrArg (fun o => Option.bind o _) h2) ?_
    exact h3
  refine ⟨_, exec_reach _ .init h5, _, rfl, rfl, ?_⟩
  simp only [users, List.countP_append, List.countP_replicate, Uses]
  simp
  omega

end Veri
