import Verif.Store.Conc
/-
C125: do concurrent inserts and deletes take effect one after the other?
-/
set_option autoImplicit false
namespace Veri
open Gencoder

namespace Ref

/-- A write request: insert with this expiry, or delete. -/
inductive Write where
  | put (k : DatumKey) (v : DatumValue) (x : Int64)
  | del (k : DatumKey)
  deriving DecidableEq

/-- What it does, exactly as in `Ref.insert` (C08). -/
def Write.run (r : RefMap) : Write → RefMap
  | .put k v x =>
    match r k with
    | some old => if old.value = v ∧ near x old.expireAt then r else update r k (some ⟨v, x⟩)
    | none => update r k (some ⟨v, x⟩)
  | .del k => update r k none

theorem insert_eq_run (r : RefMap) (now : Int64) (k : DatumKey) (v : DatumValue) (c : Option InsertConfig) :
    insert r now k v c = (Write.put k v (expiry now c)).run r := rfl

/-- What it may do: an insert that meets the same value with a near expiry may set its own expiry or leave it. -/
def Write.may (r r' : RefMap) : Write → Prop
  | .put k v x => r' = update r k (some ⟨v, x⟩) ∨ r' = r ∧ ∃ old, r k = some old ∧ old.value = v ∧ near x old.expireAt
  | .del k => r' = update r k none

/-- One after the other. -/
inductive Runs : RefMap → List Write → RefMap → Prop where
  | nil {r} : Runs r [] r
  | snoc {r r1 r2 ws w} : Runs r ws r1 → w.may r1 r2 → Runs r (ws ++ [w]) r2

end Ref

namespace Linear
open Store hiding Label

/-- Where a request is. -/
inductive Stage where
  | called
  /-- data/newsync.go:59 about to `Store` -/
  | loaded
  | returned
  deriving DecidableEq, Repr

structure Client where
  write : Ref.Write
  stage : Stage
  deriving DecidableEq

/-- The goroutine of Store/Conc.lean. -/
def Client.thread (c : Client) : Thread :=
  match c.write, c.stage with
  | .put k v x, .called => .insLoad (encKey k) ⟨x, ⟨some k, some v⟩⟩
  | .put k v x, .loaded => .insStore (encKey k) ⟨x, ⟨some k, some v⟩⟩
  | .put k v x, .returned => .insDone (encKey k) ⟨x, ⟨some k, some v⟩⟩
  | .del k, .returned => .delDone (encKey k)
  | .del k, _ => .delDelete (encKey k)

/-- The map, the requests in the order of their calls, and (history) in the order of their returns. -/
structure LS where
  map : DBMap
  clients : List Client
  order : List Nat

inductive Label where
  | call (w : Ref.Write)
  | act (j : Nat)

/-- The next step of a request: the map, and where the request is then (data/newsync.go:43-62, 70). -/
def move (m : DBMap) : Client → Option (DBMap × Stage)
  | ⟨.put k v x, .called⟩ =>
    match isNewEntry (m.get? (encKey k)) ⟨x, ⟨some k, some v⟩⟩ with
    | some true => some (m, .loaded)
    | some false => some (m, .returned)
    | none => none
  | ⟨.put k v x, .loaded⟩ => some (m.set (encKey k) ⟨x, ⟨some k, some v⟩⟩, .returned)
  | ⟨.del k, .called⟩ => some (m.erase (encKey k), .returned)
  | _ => none

def step (s : LS) : Label → Option LS
  | .call w => some { s with clients := s.clients ++ [⟨w, .called⟩] }
  | .act j =>
    match s.clients[j]? with
    | some c =>
      match move s.map c with
      | some (m, g) => some ⟨m, s.clients.set j ⟨c.write, g⟩, if g = .returned then s.order ++ [j] else s.order⟩
      | none => none
    | none => none

def exec (s : LS) : List Label → Option LS
  | [] => some s
  | l :: ls => (step s l).bind fun s => exec s ls

def start (m : DBMap) : LS := ⟨m, [], []⟩

theorem exec_append : ∀ (l1 l2 : List Label) (s : LS), exec s (l1 ++ l2) = (exec s l1).bind fun t => exec t l2
  | [], _, _ => rfl
  | l :: l1, l2, s => by
    simp only [List.cons_append, exec]
    cases step s l with
    | none => rfl
    | some t => exact exec_append l1 l2 t

/-- These are executions of the machine of Store/Conc.lean. -/
theorem step_conc {s s' : LS} {l : Label} (h : step s l = some s') :
    ∃ l', CStep ⟨s.map, (s.clients.map Client.thread).reverse⟩ l' ⟨s'.map, (s'.clients.map Client.thread).reverse⟩ := by
  cases l with
  | call w =>
    cases h
    refine ⟨.spawn (Client.thread ⟨w, .called⟩), ?_⟩
    simp only [List.map_append, List.map_cons, List.map_nil, List.reverse_append, List.reverse_cons, List.reverse_nil, List.nil_append,
      List.singleton_append]
    exact .spawn (by cases w <;> exact trivial)
  | act j =>
    simp only [step] at h
    cases hc : s.clients[j]? with
    | none => rw [hc] at h; cases h
    | some c =>
      rw [hc] at h
      simp only at h
      cases hm : move s.map c with
      | none => rw [hm] at h; cases h
      | some p =>
        obtain ⟨m, g⟩ := p
        rw [hm] at h
        simp only [Option.some.injEq] at h
        subst h
        obtain ⟨hlt, hcj⟩ := List.getElem?_eq_some_iff.1 hc
        have hsplit : s.clients = s.clients.take j ++ c :: s.clients.drop (j + 1) := by
          rw [← hcj, List.getElem_cons_drop, List.take_append_drop]
        have hset : s.clients.set j ⟨c.write, g⟩ = s.clients.take j ++ ⟨c.write, g⟩ :: s.clients.drop (j + 1) := by
          rw [List.set_eq_take_append_cons_drop, if_pos hlt]
        have e1 : (s.clients.map Client.thread).reverse =
            ((s.clients.drop (j + 1)).map Client.thread).reverse ++ c.thread :: ((s.clients.take j).map Client.thread).reverse := by
          conv => lhs; rw [hsplit]
          simp
        have e2 : ((s.clients.set j ⟨c.write, g⟩).map Client.thread).reverse =
            ((s.clients.drop (j + 1)).map Client.thread).reverse ++ Client.thread ⟨c.write, g⟩ ::
              ((s.clients.take j).map Client.thread).reverse := by
          rw [hset]; simp
        simp only
        rw [e1, e2]
        obtain ⟨w, st⟩ := c
        cases w with
        | put k v x =>
          cases st with
          | called =>
            simp only [move] at hm
            split at hm
            · rename_i hn; cases hm; exact ⟨_, .loadNew hn⟩
            · rename_i hn; cases hm; exact ⟨_, .loadOld hn⟩
            · cases hm
          | loaded => cases hm; exact ⟨_, .store⟩
          | returned => cases hm
        | del k =>
          cases st with
          | called => cases hm; exact ⟨_, .delete⟩
          | loaded => cases hm
          | returned => cases hm

/-! ### The order of returns -/

structure Inv (r0 : Ref.RefMap) (s : LS) : Prop where
  wf : WF s.map
  mem : ∀ i, i ∈ s.order ↔ ∃ c, s.clients[i]? = some c ∧ c.stage = .returned
  nodup : s.order.Nodup
  runs : Ref.Runs r0 (s.order.filterMap fun i => (s.clients[i]?).map (·.write)) (abs s.map)

theorem isNew_false {m : DBMap} (h : WF m) {k : DatumKey} {v : DatumValue} {x : Int64}
    (hn : isNewEntry (m.get? (encKey k)) ⟨x, ⟨some k, some v⟩⟩ = some false) :
    ∃ old, abs m k = some old ∧ old.value = v ∧ Ref.near x old.expireAt := by
  cases hg : m.get? (encKey k) with
  | none => rw [hg] at hn; cases hn
  | some e =>
    obtain ⟨k', w, hk, he⟩ := h.entry (AMap.mem_of_get? hg)
    have := encKey_inj hk
    subst this
    rw [hg, he] at hn
    simp only [isNewEntry, getValueAsBytes_some, Option.some.injEq, Bool.not_eq_false', Bool.and_eq_true, decide_eq_true_eq] at hn
    refine ⟨⟨w, e.expireAt⟩, ?_, (encValue_inj hn.1).symm, (closeEnough_iff _ _).1 hn.2⟩
    rw [abs_some_iff h, hg]
    rw [he]

theorem isNew_true {m : DBMap} (h : WF m) {k : DatumKey} {v : DatumValue} {x : Int64} :
    isNewEntry (m.get? (encKey k)) ⟨x, ⟨some k, some v⟩⟩ ≠ none := by
  intro hn
  cases hg : m.get? (encKey k) with
  | none => rw [hg] at hn; cases hn
  | some e =>
    obtain ⟨k', w, hk, he⟩ := h.entry (AMap.mem_of_get? hg)
    rw [hg, he] at hn
    simp [isNewEntry, getValueAsBytes_some] at hn

/-- What a step of a request does to the reference map. -/
theorem move_may {m m' : DBMap} (h : WF m) {c : Client} {g : Stage} (hm : move m c = some (m', g)) :
    WF m' ∧ c.stage ≠ .returned ∧ (g = .returned → c.write.may (abs m) (abs m')) ∧ (g ≠ .returned → m' = m) := by
  obtain ⟨w, st⟩ := c
  cases w with
  | put k v x =>
    cases st with
    | called =>
      simp only [move] at hm
      split at hm
      · cases hm; exact ⟨h, by simp, by simp, fun _ => rfl⟩
      · rename_i hn
        cases hm
        exact ⟨h, by simp, fun _ => Or.inr ⟨rfl, isNew_false h hn⟩, fun _ => rfl⟩
      · cases hm
    | loaded =>
      cases hm
      exact ⟨wf_set h k v x, by simp, fun _ => Or.inl (abs_set k v x), fun h => absurd rfl h⟩
    | returned => cases hm
  | del k =>
    cases st with
    | called => cases hm; exact ⟨wf_erase h _, by simp, fun _ => abs_erase k, fun h => absurd rfl h⟩
    | loaded => cases hm
    | returned => cases hm

theorem inv_step {r0 : Ref.RefMap} {s s' : LS} {l : Label} (h : Inv r0 s) (hs : step s l = some s') :
    Inv r0 s' ∧ ∃ rest, s'.order = s.order ++ rest := by
  have hlt : ∀ i ∈ s.order, i < s.clients.length := by
    intro i hi
    obtain ⟨c, hc, _⟩ := (h.mem i).1 hi
    exact (List.getElem?_eq_some_iff.1 hc).1
  cases l with
  | call w =>
    cases hs
    refine ⟨⟨h.wf, ?_, h.nodup, ?_⟩, [], by simp⟩
    · intro i
      rw [h.mem i]
      simp only [List.getElem?_append]
      constructor
      · rintro ⟨c, hc, hst⟩
        exact ⟨c, by rw [if_pos (List.getElem?_eq_some_iff.1 hc).1]; exact hc, hst⟩
      · rintro ⟨c, hc, hst⟩
        split at hc
        · exact ⟨c, hc, hst⟩
        · rw [List.getElem?_singleton] at hc
          split at hc
          · cases hc; cases hst
          · cases hc
    · have : (s.order.filterMap fun i => ((s.clients ++ [⟨w, .called⟩])[i]?).map (·.write)) =
          s.order.filterMap fun i => (s.clients[i]?).map (·.write) := by
        have : ∀ l : List Nat, (∀ i ∈ l, i < s.clients.length) → (l.filterMap fun i => ((s.clients ++ [⟨w, .called⟩])[i]?).map Client.write) =
            l.filterMap fun i => (s.clients[i]?).map Client.write := by
          intro l
          induction l with
          | nil => intro _; rfl
          | cons i l ih =>
            intro hl
            rw [List.filterMap_cons, List.filterMap_cons, List.getElem?_append_left (hl i List.mem_cons_self),
              ih fun i hi => hl i (List.mem_cons_of_mem _ hi)]
        exact this s.order hlt
      simp only
      rw [this]
      exact h.runs
  | act j =>
    simp only [step] at hs
    cases hc : s.clients[j]? with
    | none => rw [hc] at hs; cases hs
    | some c =>
      rw [hc] at hs
      simp only at hs
      cases hm : move s.map c with
      | none => rw [hm] at hs; cases hs
      | some p =>
        obtain ⟨m, g⟩ := p
        rw [hm] at hs
        simp only [Option.some.injEq] at hs
        subst hs
        obtain ⟨hw, hst, hmay, hsame⟩ := move_may h.wf hm
        obtain ⟨hj, _⟩ := List.getElem?_eq_some_iff.1 hc
        have hnj : j ∉ s.order := by
          intro hin
          obtain ⟨c', hc', hr⟩ := (h.mem j).1 hin
          rw [hc] at hc'
          cases hc'
          exact hst hr
        have hwr : ∀ i : Nat, ((s.clients.set j ⟨c.write, g⟩)[i]?).map Client.write = (s.clients[i]?).map Client.write := by
          intro i
          by_cases he : j = i
          · subst he; rw [List.getElem?_set_self hj, hc]; rfl
          · rw [List.getElem?_set_ne he]
        have hmem : ∀ i, i ≠ j → ((∃ d, (s.clients.set j ⟨c.write, g⟩)[i]? = some d ∧ d.stage = .returned) ↔ i ∈ s.order) := by
          intro i hi
          rw [List.getElem?_set_ne (Ne.symm hi), h.mem i]
        by_cases hg : g = .returned
        · subst hg
          simp only [if_true]
          refine ⟨⟨hw, ?_, ?_, ?_⟩, [j], rfl⟩
          · intro i
            simp only [List.mem_append, List.mem_singleton]
            by_cases hi : i = j
            · subst hi
              simp only [or_true, true_iff]
              exact ⟨_, List.getElem?_set_self hj, rfl⟩
            · rw [hmem i hi]; simp [hi]
          · exact List.nodup_append.2 ⟨h.nodup, by simp, by
              intro a ha b hb; simp only [List.mem_singleton] at hb; subst hb; rintro rfl; exact hnj ha⟩
          · simp only [hwr, List.filterMap_append, List.filterMap_cons, hc, Option.map_some, List.filterMap_nil]
            exact h.runs.snoc (hmay rfl)
        · simp only [if_neg hg]
          refine ⟨⟨hw, ?_, h.nodup, ?_⟩, [], by simp⟩
          · intro i
            simp only
            by_cases hi : i = j
            · subst hi
              simp only [hnj, false_iff]
              rintro ⟨d, hd, hr⟩
              rw [List.getElem?_set_self hj] at hd
              cases hd
              exact hg hr
            · exact (hmem i hi).symm
          · simp only [hwr]
            rw [hsame hg]
            exact h.runs

theorem inv_exec {r0 : Ref.RefMap} : ∀ (ls : List Label) {s s' : LS}, Inv r0 s → exec s ls = some s' →
    Inv r0 s' ∧ ∃ rest, s'.order = s.order ++ rest
  | [], s, s', h, he => by cases he; exact ⟨h, [], by simp⟩
  | l :: ls, s, s', h, he => by
    simp only [exec] at he
    cases hs : step s l with
    | none => rw [hs] at he; cases he
    | some t =>
      rw [hs] at he
      obtain ⟨h1, r1, e1⟩ := inv_step h hs
      obtain ⟨h2, r2, e2⟩ := inv_exec ls h1 he
      exact ⟨h2, r1 ++ r2, by rw [e2, e1, List.append_assoc]⟩

theorem inv_start {m : DBMap} (h : WF m) : Inv (abs m) (start m) := by
  refine ⟨h, ?_, by simp [start], .nil⟩
  intro i; simp [start]

/-- `order` respects time: a request that had returned before another was called comes before it. -/
def RealTime (m : DBMap) (ls : List Label) (order : List Nat) : Prop :=
  ∀ ls1 ls2 s1, ls = ls1 ++ ls2 → exec (start m) ls1 = some s1 →
    ∀ i ∈ order, ∀ j ∈ order, (∃ c, s1.clients[i]? = some c ∧ c.stage = .returned) → s1.clients.length ≤ j →
      order.idxOf i < order.idxOf j

theorem realTime {m : DBMap} (hm : WF m) {ls : List Label} {s : LS} (h : exec (start m) ls = some s) : RealTime m ls s.order := by
  intro ls1 ls2 s1 he h1 i hi j hj hret hlen
  rw [he, exec_append, h1] at h
  obtain ⟨hi1, _⟩ := inv_exec ls1 (inv_start hm) h1
  obtain ⟨_, rest, hr⟩ := inv_exec ls2 hi1 h
  have hin : i ∈ s1.order := (hi1.mem i).2 hret
  have hjn : j ∉ s1.order := by
    intro hjn
    obtain ⟨c, hc, _⟩ := (hi1.mem j).1 hjn
    exact absurd (List.getElem?_eq_some_iff.1 hc).1 (by omega)
  rw [hr, List.idxOf_append, List.idxOf_append, if_pos hin, if_neg hjn]
  have := List.idxOf_lt_length_iff.2 hin
  omega

end Linear

open Store hiding Label
open Linear

/-- C125, full statement: when all concurrent inserts and deletes have returned, the data set is as if they had been carried out one
after the other, in an order in which a request that had returned before another was called comes first.  FALSE of the code. -/
def C125_linearizable_statement : Prop :=
  ∀ (m : DBMap) (ls : List Linear.Label) (s : LS), WF m → exec (start m) ls = some s → (∀ c ∈ s.clients, c.stage = .returned) →
    ∃ order : List Nat, order.Perm (List.range s.clients.length) ∧ RealTime m ls order ∧
      abs s.map = (order.filterMap fun i => (s.clients[i]?).map (·.write)).foldl Ref.Write.run (abs m)

/-- C125, partial: so it is, in the order of the returns, except for the expiry: an insert that meets the same value with an expiry less
than ten seconds away may set its own expiry or leave that one.  Also while requests are under way: those that have not returned have
no effect. -/
theorem C125_linearizable_partial (m : DBMap) (ls : List Linear.Label) (s : LS) (hm : WF m) (h : exec (start m) ls = some s) :
    RealTime m ls s.order ∧ s.order.Nodup ∧ (∀ i, i ∈ s.order ↔ ∃ c, s.clients[i]? = some c ∧ c.stage = .returned) ∧
    Ref.Runs (abs m) (s.order.filterMap fun i => (s.clients[i]?).map (·.write)) (abs s.map) := by
  obtain ⟨hi, _⟩ := inv_exec ls (inv_start hm) h
  exact ⟨realTime hm h, hi.nodup, hi.mem, hi.runs⟩

namespace Ref

theorem runs_values {r r' : RefMap} {ws : List Write} (h : Runs r ws r') :
    ∀ k, (r' k).map (·.value) = ((ws.foldl Write.run r) k).map (·.value) := by
  induction h with
  | nil => intro k; rfl
  | @snoc r1 r2 ws w _ hm ih =>
    intro k
    rw [List.foldl_append, List.foldl_cons, List.foldl_nil]
    generalize hd : List.foldl Write.run r ws = d at ih ⊢
    cases w with
    | del k0 =>
      simp only [Write.may] at hm
      subst hm
      simp only [Write.run, update]
      split
      · rfl
      · exact ih k
    | put k0 v x =>
      have hdet : ((Write.put k0 v x).run d k).map (·.value) = if k = k0 then some v else (d k).map (·.value) := by
        simp only [Write.run]
        cases hk : d k0 with
        | none =>
          simp only [update]
          split <;> rfl
        | some old =>
          simp only
          split
          · rename_i hv
            split
            · rename_i he; subst he; rw [hk, ← hv.1]; rfl
            · rfl
          · simp only [update]
            split <;> rfl
      rw [hdet]
      rcases hm with hm | ⟨hm, old, ho, hv, _⟩
      · subst hm
        simp only [update]
        split
        · rfl
        · exact ih k
      · subst hm
        split
        · rename_i he; subst he; rw [ho, ← hv]; rfl
        · exact ih k

/-- All records are permanent. -/
def Permanent (r : RefMap) : Prop := ∀ k x, r k = some x → x.expireAt = 0

theorem runs_permanent {r r' : RefMap} {ws : List Write} (h : Runs r ws r') (hr : Permanent r)
    (hw : ∀ k v x, Write.put k v x ∈ ws → x = 0) : Permanent r' ∧ r' = ws.foldl Write.run r := by
  induction h with
  | nil => exact ⟨hr, rfl⟩
  | @snoc r1 r2 ws w _ hm ih =>
    obtain ⟨hp, he⟩ := ih (fun k v x hx => hw k v x (List.mem_append_left _ hx))
    rw [List.foldl_append, List.foldl_cons, List.foldl_nil, ← he]
    cases w with
    | del k0 =>
      simp only [Write.may] at hm
      subst hm
      refine ⟨?_, rfl⟩
      intro k x hx
      simp only [update] at hx
      split at hx
      · cases hx
      · exact hp k x hx
    | put k0 v x =>
      have hx0 := hw k0 v x (by simp)
      subst hx0
      have hup : (Write.put k0 v 0).run r1 = update r1 k0 (some ⟨v, 0⟩) := by
        simp only [Write.run]
        cases hk : r1 k0 with
        | none => rfl
        | some old =>
          simp only
          split
          · rename_i hv
            funext k
            simp only [update]
            split
            · rename_i hkk
              subst hkk
              rw [hk]
              have := hp k old hk
              obtain ⟨ov, ox⟩ := old
              simp only at this hv
              rw [this, hv.1]
            · rfl
          · rfl
      rw [hup]
      have hpu : Permanent (update r1 k0 (some ⟨v, 0⟩)) := by
        intro k x hx
        simp only [update] at hx
        split at hx
        · cases hx; rfl
        · exact hp k x hx
      rcases hm with hm | ⟨hm, old, ho, hv, _⟩
      · exact ⟨hm ▸ hpu, hm⟩
      · subst hm
        refine ⟨hp, ?_⟩
        funext k
        simp only [update]
        split
        · rename_i hkk
          subst hkk
          rw [ho]
          have := hp k old ho
          obtain ⟨ov, ox⟩ := old
          simp only at this hv
          rw [this, hv]
        · rfl

end Ref

/-- C125, partial: which keys are present and the values are exactly those of the sequence. -/
theorem C125_values_partial (m : DBMap) (ls : List Linear.Label) (s : LS) (hm : WF m) (h : exec (start m) ls = some s) :
    RealTime m ls s.order ∧ ∀ k, (abs s.map k).map (·.value) =
      ((s.order.filterMap fun i => (s.clients[i]?).map (·.write)).foldl Ref.Write.run (abs m) k).map (·.value) := by
  obtain ⟨h1, _, _, h2⟩ := C125_linearizable_partial m ls s hm h
  exact ⟨h1, Ref.runs_values h2⟩

/-- C125, partial: for data without expiry the full statement holds. -/
theorem C125_permanent_partial (m : DBMap) (ls : List Linear.Label) (s : LS) (hm : WF m) (h : exec (start m) ls = some s)
    (hp : Ref.Permanent (abs m)) (hw : ∀ c ∈ s.clients, ∀ k v x, c.write = .put k v x → x = 0)
    (hret : ∀ c ∈ s.clients, c.stage = .returned) :
    ∃ order : List Nat, order.Perm (List.range s.clients.length) ∧ RealTime m ls order ∧
      abs s.map = (order.filterMap fun i => (s.clients[i]?).map (·.write)).foldl Ref.Write.run (abs m) := by
  obtain ⟨h1, h2, h3, h4⟩ := C125_linearizable_partial m ls s hm h
  refine ⟨s.order, ?_, h1, (Ref.runs_permanent h4 hp ?_).2⟩
  · rw [List.perm_ext_iff_of_nodup h2 List.nodup_range]
    intro i
    rw [h3 i, List.mem_range]
    constructor
    · rintro ⟨c, hc, _⟩; exact (List.getElem?_eq_some_iff.1 hc).1
    · intro hi
      exact ⟨s.clients[i], List.getElem?_eq_some_iff.2 ⟨hi, rfl⟩, hret _ (List.getElem_mem hi)⟩
  · intro k v x hx
    obtain ⟨i, _, hi⟩ := List.mem_filterMap.1 hx
    cases hc : s.clients[i]? with
    | none => rw [hc] at hi; cases hi
    | some c =>
      rw [hc] at hi
      simp only [Option.map_some, Option.some.injEq] at hi
      exact hw c (List.mem_of_getElem? hc) k v x hi

namespace Linear

/-- Three inserts of the same value, with expiries 1018, 1010 and 1002.  The first looks before the others store and stores last; the
third comes after the second has returned, and finds its expiry near enough. -/
def exLabels : List Label :=
  [.call (.put (exKey 1) (exVal 1) 1018), .act 0, .call (.put (exKey 1) (exVal 1) 1010), .act 1, .act 1,
   .call (.put (exKey 1) (exVal 1) 1002), .act 2, .act 0]

/-- What the key holds after these requests in this order. -/
def lastOf (order : List Nat) : Option Ref.Rec :=
  ((order.filterMap fun i => (([⟨.put (exKey 1) (exVal 1) 1018, .returned⟩, ⟨.put (exKey 1) (exVal 1) 1010, .returned⟩,
    ⟨.put (exKey 1) (exVal 1) 1002, .returned⟩] : List Client)[i]?).map (·.write)).foldl Ref.Write.run (abs [])) (exKey 1)

end Linear

/-- C125, counterexample: the first insert's expiry is kept; in every order that puts the second before the third it is that of the
second or third. -/
theorem C125_linearizable_fails : ¬ C125_linearizable_statement := by
  intro h
  obtain ⟨s, hs⟩ : ∃ s, exec (start []) exLabels = some s := Option.isSome_iff_exists.1 (by decide +kernel)
  have hcl : s.clients = [⟨.put (exKey 1) (exVal 1) 1018, .returned⟩, ⟨.put (exKey 1) (exVal 1) 1010, .returned⟩,
      ⟨.put (exKey 1) (exVal 1) 1002, .returned⟩] := by
    have : (exec (start []) exLabels).map (·.clients) = some [⟨.put (exKey 1) (exVal 1) 1018, .returned⟩,
      ⟨.put (exKey 1) (exVal 1) 1010, .returned⟩, ⟨.put (exKey 1) (exVal 1) 1002, .returned⟩] := by decide +kernel
    rw [hs] at this
    simpa using this
  have hab : abs s.map (exKey 1) = some ⟨exVal 1, 1018⟩ := by
    have : (exec (start []) exLabels).map (fun s => abs s.map (exKey 1)) = some (some ⟨exVal 1, 1018⟩) := by decide +kernel
    rw [hs] at this
    simpa using this
  obtain ⟨s1, hs1⟩ : ∃ s1, exec (start []) (exLabels.take 5) = some s1 := Option.isSome_iff_exists.1 (by decide +kernel)
  have hcl1 : s1.clients = [⟨.put (exKey 1) (exVal 1) 1018, .loaded⟩, ⟨.put (exKey 1) (exVal 1) 1010, .returned⟩] := by
    have : (exec (start []) (exLabels.take 5)).map (·.clients) = some [⟨.put (exKey 1) (exVal 1) 1018, .loaded⟩,
      ⟨.put (exKey 1) (exVal 1) 1010, .returned⟩] := by decide +kernel
    rw [hs1] at this
    simpa using this
  obtain ⟨order, hp, hrt, he⟩ := h [] exLabels s wf_nil hs (by rw [hcl]; simp)
  rw [hcl] at hp he
  have hlen : order.length = 3 := by rw [hp.length_eq]; rfl
  have hmem : ∀ i, i ∈ order ↔ i < 3 := by intro i; rw [hp.mem_iff, List.mem_range]; rfl
  have hbefore := hrt (exLabels.take 5) (exLabels.drop 5) s1 (List.take_append_drop 5 exLabels).symm hs1 1
    ((hmem 1).2 (by omega)) 2 ((hmem 2).2 (by omega)) ⟨_, by rw [hcl1]; rfl, rfl⟩ (by rw [hcl1]; decide)
  have hnd : order.Nodup := hp.nodup_iff.2 List.nodup_range
  match order, hlen with
  | [a, b, c], _ =>
    have ha := (hmem a).1 (by simp)
    have hb := (hmem b).1 (by simp)
    have hc := (hmem c).1 (by simp)
    have key : ∀ a b c : Fin 3, !(decide [a.1, b.1, c.1].Nodup && decide ([a.1, b.1, c.1].idxOf 1 < [a.1, b.1, c.1].idxOf 2) &&
        decide (lastOf [a.1, b.1, c.1] = some ⟨exVal 1, 1018⟩)) := by decide +kernel
    have := key ⟨a, ha⟩ ⟨b, hb⟩ ⟨c, hc⟩
    simp only [Bool.not_eq_true', Bool.and_eq_false_iff, decide_eq_false_iff_not] at this
    rcases this with (hk | hk) | hk
    · exact hk hnd
    · exact hk hbefore
    · exact hk (by rw [← hab, he]; rfl)

/-- C125: overlapping inserts and a delete of the same key, data without expiry. -/
theorem C125_example : ∃ s, exec (start []) [.call (.put (exKey 1) (exVal 1) 0), .act 0, .call (.put (exKey 1) (exVal 2) 0), .act 1,
      .call (.del (exKey 1)), .act 1, .act 2, .act 0] = some s ∧ s.order = [1, 2, 0] ∧ (∀ c ∈ s.clients, c.stage = .returned) ∧
    abs s.map (exKey 1) = some ⟨exVal 1, 0⟩ := by
  obtain ⟨s, hs⟩ : ∃ s, exec (start []) [.call (.put (exKey 1) (exVal 1) 0), .act 0, .call (.put (exKey 1) (exVal 2) 0), .act 1,
      .call (.del (exKey 1)), .act 1, .act 2, .act 0] = some s := Option.isSome_iff_exists.1 (by decide +kernel)
  have : (exec (start []) [.call (.put (exKey 1) (exVal 1) 0), .act 0, .call (.put (exKey 1) (exVal 2) 0), .act 1,
      .call (.del (exKey 1)), .act 1, .act 2, .act 0]).map (fun s => (s.order, s.clients.map (·.stage), abs s.map (exKey 1))) =
      some ([1, 2, 0], [.returned, .returned, .returned], some ⟨exVal 1, 0⟩) := by decide +kernel
  rw [hs] at this
  simp only [Option.map_some, Option.some.injEq, Prod.mk.injEq] at this
  refine ⟨s, hs, this.1, ?_, this.2.2⟩
  intro c hc
  have h1 : c.stage ∈ s.clients.map (·.stage) := List.mem_map.2 ⟨c, hc, rfl⟩
  rw [this.2.1] at h1
  simpa using h1

end Veri
