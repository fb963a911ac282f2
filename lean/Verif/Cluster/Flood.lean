import Verif.Cluster.Query
/-
C186: which nodes a search reaches.  The executions of C37 (Cluster/Query.lean): a node that takes a query asks its sources, each
node carries a query out once.
-/
set_option autoImplicit false
namespace Veri
namespace Clu
open Net

/-- data/data.go:239-253 with the limit 5: `p` are the sources asked, in some order, at most six. -/
def Picks (sources p : List Nat) : Prop := ∃ order : List Nat, order.Perm sources ∧ p = order.take 6

/-- A step that does not hinder the query `u`: no request for it is lost, it is handled by nodes that have the data set, and each datum of
the request is sent on to the sources picked (data/search.go:194-199); `next` says which nodes the sources of a node are. -/
def Unhindered (next : Nat → List Nat) (u : String) (s : QState) : QLabel → Prop
  | .handle k fresh dsts => ∀ m, s.msgs[k]? = some m → m.config.uuid = u ∨ (m.config.uuid = "" ∧ fresh = u) →
      (∀ n, s.nodes[m.dst]? = some n → ∃ dt, DS.getNoCreate s.now n.dataset m.config.dataName = .ok dt) ∧ 1 ≤ m.data ∧
      ∃ ps : List (List Nat), ps.length = m.data ∧ (∀ p ∈ ps, Picks (next m.dst) p) ∧ dsts = ps.flatten
  | .lose k => ∀ m, s.msgs[k]? = some m → m.config.uuid ≠ u
  | _ => True

def Floods (next : Nat → List Nat) (u : String) : QState → List QLabel → Prop
  | _, [] => True
  | s, l :: ls => Unhindered next u s l ∧ ∀ s', qstep s l = some s' → Floods next u s' ls

/-- There is a chain of sources. -/
inductive Linked (next : Nat → List Nat) (i : Nat) : Nat → Prop
  | refl : Linked next i i
  | step {j k : Nat} : Linked next i j → k ∈ next j → Linked next i k

/-- The node has carried the query out. -/
def Took (u : String) (s : QState) (v : Nat) : Prop := ∃ e ∈ s.execs, e.uuid = u ∧ e.node = v

/-- It has, or a request is on its way to it. -/
def Due (u : String) (s : QState) (v : Nat) : Prop := (∃ m ∈ s.msgs, m.config.uuid = u ∧ m.dst = v) ∨ Took u s v

structure FInv (next : Nat → List Nat) (u : String) (s : QState) : Prop where
  noted : ∀ i n, s.nodes[i]? = some n → n.queries.get? u ≠ none → Took u s i
  on : ∀ e ∈ s.execs, e.uuid = u → ∀ v ∈ next e.node, Due u s v

theorem picks_all {l p : List Nat} (h : Picks l p) (h6 : l.length ≤ 6) {v : Nat} (hv : v ∈ l) : v ∈ p := by
  obtain ⟨o, ho, rfl⟩ := h
  rw [List.take_of_length_le (by rw [ho.length_eq]; exact h6)]
  exact ho.mem_iff.2 hv

theorem picked {next : Nat → List Nat} {i n : Nat} {dsts : List Nat} (h6 : (next i).length ≤ 6) (hn : 1 ≤ n)
    (h : ∃ ps : List (List Nat), ps.length = n ∧ (∀ p ∈ ps, Picks (next i) p) ∧ dsts = ps.flatten) {v : Nat} (hv : v ∈ next i) : v ∈ dsts := by
  obtain ⟨ps, h1, h2, rfl⟩ := h
  match ps, h1 with
  | [], h1 => simp at h1; omega
  | p :: ps, _ => exact List.mem_flatten.2 ⟨p, by simp, picks_all (h2 p (by simp)) h6 hv⟩

theorem entry_none {now : Int} {fresh uid : String} {n : Node} (h : queryEntry now fresh n uid = none) : uid ≠ "" ∧ n.queries.get? uid ≠ none := by
  unfold queryEntry at h
  split at h
  · cases h
  · rename_i h0
    refine ⟨h0, fun hn => ?_⟩
    rw [hn] at h
    cases h

theorem searchEntry_none {now : Int} {fresh : String} {n n' : Node} {c : SearchConfig} (h : searchEntry now fresh n (some c) = .ok (n', none)) :
    n' = n ∧ queryEntry now fresh n c.uuid = none := by
  simp only [searchEntry] at h
  split at h
  · rename_i hq; cases h; exact ⟨rfl, hq⟩
  · split at h <;> cases h

theorem searchEntry_err {now : Int} {fresh : String} {n : Node} {c : SearchConfig} {e : Err} (h : searchEntry now fresh n (some c) = .err e) :
    DS.getNoCreate now n.dataset c.dataName = .err e := by
  simp only [searchEntry] at h
  split at h
  · cases h
  · rename_i n1 u hq
    have : n1.dataset = n.dataset := by
      rcases queryEntry_some hq with ⟨-, rfl, -⟩ | ⟨-, -, rfl, -⟩ <;> rfl
    rw [this] at h
    split at h
    · cases h
    · rename_i e' he; cases h; exact he
    · cases h

theorem took_more {u : String} {s : QState} {v : Nat} (h : Took u s v) {now : Int} {nodes : List Node} {msgs : List QMsg} {x : List Exec}
    {used : List String} : Took u ⟨now, nodes, msgs, s.execs ++ x, used⟩ v := by
  obtain ⟨e, h1, h2⟩ := h
  exact ⟨e, by simp [h1], h2⟩

/-- What was due stays due, or has come to pass. -/
theorem flood_step {next : Nat → List Nat} {u : String} {s s' : QState} {l : QLabel} (hu : u ≠ "") (h6 : ∀ v, (next v).length ≤ 6)
    (hi : FInv next u s) (hf : Unhindered next u s l) (h : qstep s l = some s') :
    FInv next u s' ∧ (∀ v, Due u s v → Due u s' v) ∧ (∀ m, l = .client m → m.config.uuid = u → Due u s' m.dst) := by
  suffices hh : (∀ i n, s'.nodes[i]? = some n → n.queries.get? u ≠ none → Took u s' i) ∧ (∀ v, Due u s v → Due u s' v) ∧
      (∀ e ∈ s'.execs, e ∉ s.execs → e.uuid = u → ∀ v ∈ next e.node, Due u s' v) ∧ (∀ m, l = .client m → m.config.uuid = u → Due u s' m.dst) by
    refine ⟨⟨hh.1, fun e he hu' v hv => ?_⟩, hh.2.1, hh.2.2.2⟩
    by_cases hes : e ∈ s.execs
    · exact hh.2.1 v (hi.on e hes hu' v hv)
    · exact hh.2.2.1 e he hes hu' v hv
  cases l with
  | tick now =>
    simp only [qstep] at h
    split at h
    · cases h
      exact ⟨hi.noted, fun v hv => hv, fun e he hne => absurd he hne, fun m hm => by cases hm⟩
    · cases h
  | client m =>
    simp only [qstep, Option.some.injEq] at h
    subst h
    refine ⟨hi.noted, ?_, fun e he hne => absurd he hne, ?_⟩
    · rintro v (⟨m', h1, h2⟩ | h1)
      · exact Or.inl ⟨m', by simp [h1], h2⟩
      · exact Or.inr h1
    · intro m' hm hmu
      cases hm
      exact Or.inl ⟨{ m with client := true }, by simp, hmu, rfl⟩
  | handle k fresh dsts =>
    simp only [qstep] at h
    cases hm : s.msgs[k]? with
    | none => rw [hm] at h; cases h
    | some m =>
      rw [hm] at h
      simp only at h
      cases hn : s.nodes[m.dst]? with
      | none => rw [hn] at h; cases h
      | some n =>
        rw [hn] at h
        simp only at h
        split at h
        · cases h
        have hf := hf m hm
        -- a message that is not the one handled stays
        have hrest : ∀ v, (∃ m' ∈ s.msgs, m'.config.uuid = u ∧ m'.dst = v) →
            (∃ m' ∈ s.msgs.eraseIdx k, m'.config.uuid = u ∧ m'.dst = v) ∨ (m.config.uuid = u ∧ m.dst = v) := by
          rintro v ⟨m', h1, h2⟩
          obtain ⟨i, hi'⟩ := List.getElem?_of_mem h1
          by_cases hik : i = k
          · subst hik
            rw [hm] at hi'
            cases hi'
            exact Or.inr h2
          · exact Or.inl ⟨m', List.mem_eraseIdx_iff_getElem?.2 ⟨i, hik, hi'⟩, h2⟩
        cases hse : searchEntry s.now fresh n (some m.config) with
        | panic => rw [hse] at h; cases h
        | err e =>
          rw [hse] at h
          simp only [Option.some.injEq] at h
          subst h
          have hnot : m.config.uuid ≠ u := by
            intro he
            obtain ⟨⟨dt, hdt⟩, _⟩ := (hf (Or.inl he)).imp (fun h => h n hn) id
            rw [searchEntry_err hse] at hdt
            cases hdt
          refine ⟨?_, ?_, fun e he hne => absurd he hne, fun m hm => by cases hm⟩
          · intro i n' hn' hq
            by_cases hid : m.dst = i
            · subst hid
              rw [List.getElem?_set_self (List.getElem?_eq_some_iff.mp hn).1] at hn'
              cases hn'
              refine hi.noted m.dst n hn ?_
              intro hnone
              apply hq
              cases hqe : queryEntry s.now fresh n m.config.uuid with
              | none => exact hnone
              | some p =>
                obtain ⟨n1, u1⟩ := p
                rcases queryEntry_some hqe with ⟨-, rfl, -⟩ | ⟨-, -, rfl, -⟩
                · exact hnone
                · simp only [Option.map_some, Option.getD_some]
                  rw [AMap.get?_set_ne _ _ hnot]
                  exact hnone
            · rw [List.getElem?_set_ne hid] at hn'
              exact hi.noted i n' hn' hq
          · rintro v (h1 | h1)
            · rcases hrest v h1 with h1 | ⟨h1, _⟩
              · exact Or.inl h1
              · exact absurd h1 hnot
            · exact Or.inr h1
        | ok r =>
          obtain ⟨n', o⟩ := r
          cases o with
          | none =>
            rw [hse] at h
            simp only [Option.some.injEq] at h
            subst h
            obtain ⟨rfl, hqe⟩ := searchEntry_none hse
            obtain ⟨h0, hq⟩ := entry_none hqe
            have hset : s.nodes.set m.dst n' = s.nodes := by
              obtain ⟨hlt, he⟩ := List.getElem?_eq_some_iff.mp hn
              rw [← he, List.set_getElem_self]
            refine ⟨?_, ?_, fun e he hne => absurd he hne, fun m hm => by cases hm⟩
            · intro i n2 hn2 hq2
              simp only [hset] at hn2
              exact hi.noted i n2 hn2 hq2
            · rintro v (h1 | h1)
              · rcases hrest v h1 with h3 | ⟨h3, rfl⟩
                · exact Or.inl h3
                · rw [h3] at hq
                  exact Or.inr (hi.noted m.dst n' hn hq)
              · exact Or.inr h1
          | some dc =>
            obtain ⟨dt, c⟩ := dc
            rw [hse] at h
            simp only [Option.some.injEq] at h
            subst h
            obtain ⟨u', hqe, rfl, hdt⟩ := searchEntry_some hse
            have hcu : u' = u → m.config.uuid = u ∨ (m.config.uuid = "" ∧ fresh = u) := by
              rintro rfl
              rcases queryEntry_some hqe with ⟨h1, -, h2⟩ | ⟨-, h2, -, -⟩
              · exact Or.inr ⟨h1, h2.symm⟩
              · exact Or.inl h2.symm
            have hbk : m.config.uuid = u → u' = u := by
              intro h1
              rcases queryEntry_some hqe with ⟨h2, -, -⟩ | ⟨-, h2, -, -⟩
              · exact absurd (h1.symm.trans h2) hu
              · exact h2.trans h1
            refine ⟨?_, ?_, ?_, fun m hm => by cases hm⟩
            · intro i n2 hn2 hq2
              by_cases hid : m.dst = i
              · subst hid
                simp only at hn2
                rw [List.getElem?_set_self (List.getElem?_eq_some_iff.mp hn).1] at hn2
                cases hn2
                by_cases he : u' = u
                · exact ⟨_, by simp only [List.mem_append, List.mem_singleton]; exact Or.inr rfl, he, rfl⟩
                · refine took_more (hi.noted m.dst n hn ?_)
                  rcases queryEntry_some hqe with ⟨-, rfl, -⟩ | ⟨-, h2, rfl, -⟩
                  · exact hq2
                  · simp only at hq2
                    rwa [AMap.get?_set_ne _ _ (by rw [← h2]; exact he)] at hq2
              · simp only at hn2
                rw [List.getElem?_set_ne hid] at hn2
                exact took_more (hi.noted i n2 hn2 hq2)
            · rintro v (h1 | h1)
              · rcases hrest v h1 with ⟨m', h3, h2⟩ | ⟨h3, rfl⟩
                · exact Or.inl ⟨m', by simp [h3], h2⟩
                · exact Or.inr ⟨_, by simp only [List.mem_append, List.mem_singleton]; exact Or.inr rfl, hbk h3, rfl⟩
              · exact Or.inr (took_more h1)
            · intro e he hne heu v hv
              simp only [List.mem_append, List.mem_singleton] at he
              rcases he with he | rfl
              · exact absurd he hne
              · simp only at heu hv
                obtain ⟨_, hd, hp⟩ := hf (hcu heu)
                refine Or.inl ⟨⟨v, { m.config with uuid := u' }, 1, false⟩, ?_, heu, rfl⟩
                simp only [List.mem_append, List.mem_map]
                exact Or.inr ⟨v, picked (h6 _) hd hp hv, rfl⟩
  | lose k =>
    simp only [qstep, Option.some.injEq] at h
    subst h
    refine ⟨hi.noted, ?_, fun e he hne => absurd he hne, fun m hm => by cases hm⟩
    rintro v (⟨m', h1, h2⟩ | h1)
    · obtain ⟨i, hi'⟩ := List.getElem?_of_mem h1
      by_cases hik : i = k
      · subst hik
        exact absurd h2.1 (hf m' hi')
      · exact Or.inl ⟨m', List.mem_eraseIdx_iff_getElem?.2 ⟨i, hik, hi'⟩, h2⟩
    · exact Or.inr h1
  | janitor i uid =>
    simp only [qstep] at h
    cases hn : s.nodes[i]? with
    | none => rw [hn] at h; cases h
    | some n =>
      rw [hn] at h
      simp only at h
      split at h
      · split at h
        · cases h
        · simp only [Option.some.injEq] at h
          subst h
          refine ⟨?_, fun v hv => hv, fun e he hne => absurd he hne, fun m hm => by cases hm⟩
          intro j n2 hn2 hq2
          by_cases hid : i = j
          · subst hid
            simp only at hn2
            rw [List.getElem?_set_self (List.getElem?_eq_some_iff.mp hn).1] at hn2
            cases hn2
            refine hi.noted i n hn fun h0 => hq2 ?_
            simp only [AMap.get?_erase]
            split
            · rfl
            · exact h0
          · simp only at hn2
            rw [List.getElem?_set_ne hid] at hn2
            exact hi.noted j n2 hn2 hq2
      · cases h
  | other i n =>
    simp only [qstep] at h
    cases hn : s.nodes[i]? with
    | none => rw [hn] at h; cases h
    | some n0 =>
      rw [hn] at h
      simp only at h
      split at h
      · rename_i hq
        simp only [Option.some.injEq] at h
        subst h
        refine ⟨?_, fun v hv => hv, fun e he hne => absurd he hne, fun m hm => by cases hm⟩
        intro j n2 hn2 hq2
        by_cases hid : i = j
        · subst hid
          simp only at hn2
          rw [List.getElem?_set_self (List.getElem?_eq_some_iff.mp hn).1] at hn2
          cases hn2
          exact hi.noted i n0 hn (by rw [← hq]; exact hq2)
        · simp only at hn2
          rw [List.getElem?_set_ne hid] at hn2
          exact hi.noted j n2 hn2 hq2
      · cases h

theorem flood_exec {next : Nat → List Nat} {u : String} (hu : u ≠ "") (h6 : ∀ v, (next v).length ≤ 6) : ∀ (ls : List QLabel) {s s' : QState},
    FInv next u s → Floods next u s ls → qexec s ls = some s' →
    FInv next u s' ∧ (∀ v, Due u s v → Due u s' v) ∧ (∀ m, .client m ∈ ls → m.config.uuid = u → Due u s' m.dst)
  | [], s, s', hi, _, h => by
    simp only [qexec, Option.some.injEq] at h
    subst h
    exact ⟨hi, fun v hv => hv, fun m hm => by simp at hm⟩
  | l :: ls, s, s', hi, hf, h => by
    simp only [qexec] at h
    cases hs : qstep s l with
    | none => rw [hs] at h; cases h
    | some s1 =>
      rw [hs] at h
      obtain ⟨a1, a2, a3⟩ := flood_step hu h6 hi hf.1 hs
      obtain ⟨b1, b2, b3⟩ := flood_exec hu h6 ls a1 (hf.2 s1 hs) h
      refine ⟨b1, fun v hv => b2 v (a2 v hv), fun m hm hmu => ?_⟩
      rcases List.mem_cons.1 hm with hm | hm
      · exact b2 _ (a3 m hm.symm hmu)
      · exact b3 m hm hmu

/-- All requests for the query have been handled. -/
def Handled (u : String) (s : QState) : Prop := ∀ m ∈ s.msgs, m.config.uuid ≠ u

end Clu
open Clu Net

/-- C186, full statement: when all requests for a query have been handled and none was hindered, it has been carried out by every node
that the node of the client is connected to by sources.  FALSE of the code. -/
def C186_statement : Prop :=
  ∀ (next : Nat → List Nat) (now : Int) (nodes : List Node) (ls : List QLabel) (s : QState) (u : String), u ≠ "" →
    (∀ n ∈ nodes, n.queries.get? u = none) → qexec (qstart now nodes) ls = some s → Floods next u (qstart now nodes) ls → Handled u s →
    ∀ m, .client m ∈ ls → m.config.uuid = u → ∀ v, Linked next m.dst v → Took u s v

/-- C186, the part that holds: if no node has more than six sources. -/
theorem C186_partial (next : Nat → List Nat) (h6 : ∀ v, (next v).length ≤ 6) (now : Int) (nodes : List Node) (ls : List QLabel) (s : QState)
    (u : String) (hu : u ≠ "") (hn : ∀ n ∈ nodes, n.queries.get? u = none) (h : qexec (qstart now nodes) ls = some s)
    (hf : Floods next u (qstart now nodes) ls) (hh : Handled u s) :
    (∀ m, .client m ∈ ls → m.config.uuid = u → ∀ v, Linked next m.dst v → Took u s v) ∧
    ∀ e ∈ s.execs, e.uuid = u → ∀ v, Linked next e.node v → Took u s v := by
  have h0 : FInv next u (qstart now nodes) :=
    ⟨fun i n hi hq => absurd (hn n (List.mem_of_getElem? hi)) hq, fun e he => by simp [qstart] at he⟩
  obtain ⟨a1, -, a3⟩ := flood_exec hu h6 ls h0 hf h
  have hdue : ∀ v, Due u s v → Took u s v := by
    rintro v (⟨m, h1, h2, -⟩ | h1)
    · exact absurd h2 (hh m h1)
    · exact h1
  have hlink : ∀ i, Took u s i → ∀ v, Linked next i v → Took u s v := by
    intro i hi v hl
    induction hl with
    | refl => exact hi
    | step _ hk ih =>
      obtain ⟨e, h1, h2, rfl⟩ := ih
      exact hdue _ (a1.on e h1 h2 _ hk)
  exact ⟨fun m hm hmu v hl => hlink _ (hdue _ (a3 m hm hmu)) v hl, fun e he heu v hl => hlink _ ⟨e, he, heu, rfl⟩ v hl⟩
namespace Clu

/-- `Floods`, computed for one way to pick: `pick v` are the sources that node `v` asks. -/
def floodsB (next pick : Nat → List Nat) (u : String) : QState → List QLabel → Bool
  | _, [] => true
  | s, l :: ls =>
    (match l with
      | .handle k fresh dsts =>
        match s.msgs[k]? with
        | none => true
        | some m =>
          !(decide (m.config.uuid = u) || (decide (m.config.uuid = "") && decide (fresh = u))) ||
          ((match s.nodes[m.dst]? with
            | some n => (match DS.getNoCreate s.now n.dataset m.config.dataName with | .ok _ => true | _ => false)
            | none => true) && decide (m.data = 1) && decide (dsts = pick m.dst))
      | .lose _ => false
      | _ => true) &&
    (match qstep s l with
      | some s' => floodsB next pick u s' ls
      | none => true)

theorem floods_of {next pick : Nat → List Nat} {u : String} (hp : ∀ v, Picks (next v) (pick v)) : ∀ (ls : List QLabel) (s : QState),
    floodsB next pick u s ls = true → Floods next u s ls
  | [], _, _ => trivial
  | l :: ls, s, h => by
    simp only [floodsB, Bool.and_eq_true] at h
    refine ⟨?_, fun s' hs' => ?_⟩
    · have h := h.1
      cases l with
      | handle k fresh dsts =>
        intro m hm hu
        simp only [hm] at h
        have ho : (decide (m.config.uuid = u) || (decide (m.config.uuid = "") && decide (fresh = u))) = true := by
          simpa using hu
        rw [ho] at h
        simp only [Bool.not_true, Bool.false_or, Bool.and_eq_true, decide_eq_true_eq] at h
        obtain ⟨⟨h1, h2⟩, h3⟩ := h
        refine ⟨fun n hn => ?_, by omega, [pick m.dst], by simp [h2], by simpa using hp m.dst, by simp [h3]⟩
        rw [hn] at h1
        simp only at h1
        cases hg : DS.getNoCreate s.now n.dataset m.config.dataName with
        | ok dt => exact ⟨dt, rfl⟩
        | err e => rw [hg] at h1; cases h1
        | panic => rw [hg] at h1; cases h1
      | lose k => cases h
      | _ => trivial
    · have h := h.2
      rw [hs'] at h
      exact floods_of hp ls s' h

/-- Eight nodes, each of them a source of all others. -/
def meshNext (v : Nat) : List Nat := (List.range 8).erase v

/-- Nodes 0 to 6 happen to leave out node 7. -/
def meshPick (v : Nat) : List Nat := if v < 7 then (List.range 7).erase v else (meshNext v).take 6

theorem meshPicks (v : Nat) : Picks (meshNext v) (meshPick v) := by
  unfold meshPick
  split
  · rename_i hv
    have h8 : ∀ v < 7, ((List.range 7).erase v ++ [7]).Perm (meshNext v) ∧ ((List.range 7).erase v ++ [7]).take 6 = (List.range 7).erase v := by
      decide
    exact ⟨(List.range 7).erase v ++ [7], (h8 v hv).1, (h8 v hv).2.symm⟩
  · exact ⟨meshNext v, .refl _, rfl⟩

/-- A client's query, and its requests in the order in which they are sent. -/
def meshRun : List QLabel := .client ⟨0, exC "q", 1, true⟩ ::
  ([0] ++ meshPick 0 ++ (meshPick 0).flatMap meshPick).map fun v => .handle 0 "f" (meshPick v)

/-- Four nodes in a line, each a source of its neighbours. -/
def lineNext (v : Nat) : List Nat := if v = 0 then [1] else if v < 3 then [v - 1, v + 1] else if v = 3 then [2] else []

def lineRun : List QLabel := .client ⟨0, exC "q", 1, true⟩ ::
  [0, 1, 0, 2, 1, 3, 2].map fun v => .handle 0 "f" (lineNext v)

end Clu

/-- C186 fails: of eight nodes that are all sources of each other one is never asked. -/
theorem C186_fails : ¬ C186_statement := by
  intro h
  have hx : (qexec (qstart 0 (List.replicate 8 exN)) meshRun).any (fun s : QState => s.msgs.isEmpty &&
      !(s.execs.any fun e => decide (e.uuid = "q" ∧ e.node = 7))) = true := by decide +kernel
  cases hs : qexec (qstart 0 (List.replicate 8 exN)) meshRun with
  | none => rw [hs] at hx; cases hx
  | some s =>
    rw [hs] at hx
    simp only [Option.any_some, Bool.and_eq_true, List.isEmpty_iff, Bool.not_eq_true'] at hx
    obtain ⟨e, h1, h2⟩ := h meshNext 0 (List.replicate 8 exN) meshRun s "q" (by decide)
      (fun n hn => by rw [List.eq_of_mem_replicate hn]; rfl) hs (floods_of meshPicks _ _ (by decide +kernel))
      (fun m hm => by rw [hx.1] at hm; cases hm) ⟨0, exC "q", 1, true⟩ (by simp [meshRun]) rfl 7 (.step .refl (by decide))
    have := hx.2
    rw [List.any_eq_false] at this
    exact this e h1 (by simpa using h2)

/-- Four nodes in a line, the last one three hops away: the hypotheses of C186_partial are met, and it takes the query. -/
theorem C186_example : ∃ s, qexec (qstart 0 (List.replicate 4 exN)) lineRun = some s ∧ Floods lineNext "q" (qstart 0 (List.replicate 4 exN)) lineRun ∧
    Handled "q" s ∧ Took "q" s 3 ∧ s.execs.length = 4 := by
  have hx : (qexec (qstart 0 (List.replicate 4 exN)) lineRun).any (fun s : QState => s.msgs.isEmpty && decide (s.execs.length = 4)) = true := by
    decide +kernel
  cases hs : qexec (qstart 0 (List.replicate 4 exN)) lineRun with
  | none => rw [hs] at hx; cases hx
  | some s =>
    rw [hs] at hx
    simp only [Option.any_some, Bool.and_eq_true, List.isEmpty_iff, decide_eq_true_eq] at hx
    have h6 : ∀ v, (lineNext v).length ≤ 6 := by intro v; unfold lineNext; (repeat' split) <;> simp
    have hf : Floods lineNext "q" (qstart 0 (List.replicate 4 exN)) lineRun :=
      floods_of (pick := lineNext) (fun v => ⟨lineNext v, .refl _, (List.take_of_length_le (h6 v)).symm⟩) _ _ (by decide +kernel)
    have hh : Handled "q" s := fun m hm => by rw [hx.1] at hm; cases hm
    exact ⟨s, rfl, hf, hh, (C186_partial lineNext h6 0 _ lineRun s "q" (by decide)
      (fun n hn => by rw [List.eq_of_mem_replicate hn]; rfl) hs hf hh).1 ⟨0, exC "q", 1, true⟩ (by simp [lineRun]) rfl 3
      (.step (.step (.step .refl (k := 1) (by decide)) (k := 2) (by decide)) (by decide)), hx.2⟩

end Veri
