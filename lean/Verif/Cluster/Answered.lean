import Verif.Cluster.Survives
/-
C182: every insert is answered.
-/
set_option autoImplicit false
namespace Veri
namespace Clu
open Net

/-- The step is one of handler `j`. -/
def OfHandler (j : Nat) : ILabel → Bool
  | .serve i _ _ | .send i _ | .back i => i == j
  | _ => false

def Answered (s : IState) (j : Nat) : Prop := ∃ t err, s.tasks[j]? = some t ∧ t.phase = .over err

/-- An insert of the datum does not crash the node (C71): the data sets have a configuration, and the entries stored under the name, and the
datum, have keys and values. -/
def Safe (n : Node) (name : String) (d : Datum) : Prop :=
  DS.WF n.dataset ∧ (∃ k v, d = ⟨some k, some v⟩) ∧
    ∀ x, n.dataset.get? name = some x → Store.WF x.data.dbMap ∧ x.data.initData.sources.isSome = true

/-- The steps that a handler has before it at most. -/
def stepsLeft : Phase → Nat
  | .begun => 14
  | .sending _ limit _ => 1 + 2 * (limit + 1).toNat
  | .waiting _ _ limit _ => 2 + 2 * (limit + 1).toNat
  | .over _ => 0

def left? (s : IState) (j : Nat) : Nat := ((s.tasks[j]?).map fun t => stepsLeft t.phase).getD 14

theorem stepsLeft_after {repl : UInt32} {ok : Bool} {order : List SourceId} {limit : Int} {counter : UInt32} :
    stepsLeft (afterCall repl ok order limit counter) ≤ 1 + 2 * (limit + 1).toNat := by
  unfold afterCall
  simp only
  generalize (if ok = true then counter + 1 else counter) = c
  split <;> simp [stepsLeft]

theorem left_setPhase {s : IState} {i j : Nat} {t : Task} {p : Phase} (h : s.tasks[i]? = some t) :
    left? (setPhase s i t p) j = if i = j then stepsLeft p else left? s j := by
  unfold left? setPhase
  split
  · rename_i e; subst e; simp [(List.getElem?_eq_some_iff.mp h).1]
  · rename_i e; simp [List.getElem?_set_ne e]

theorem left_nodes {s : IState} {j : Nat} (nodes : List Node) : left? { s with nodes := nodes } j = left? s j := rfl

theorem left_append {s : IState} {j : Nat} {t : Task} (h : t.phase = .begun) : left? { s with tasks := s.tasks ++ [t] } j = left? s j := by
  unfold left?
  simp only
  rw [List.getElem?_append]
  split
  · rfl
  · rename_i hl
    rw [List.getElem?_eq_none_iff.mpr (Nat.le_of_not_lt hl)]
    cases hk : j - s.tasks.length with
    | zero => simp [h, stepsLeft]
    | succ k => simp

theorem left_of {s : IState} {j : Nat} {t : Task} (h : s.tasks[j]? = some t) : left? s j = stepsLeft t.phase := by simp [left?, h]

/-- A step of a handler makes less what it has before it, other steps do not change it. -/
theorem left_step {X : DS.XEnv} {s s' : IState} {l : ILabel} (h : istep X s l = some s') (j : Nat) :
    left? s' j + (if OfHandler j l = true then 1 else 0) ≤ left? s j := by
  have key : ∀ {i : Nat} {t : Task} {p : Phase} {u : IState}, s.tasks[i]? = some t → u.tasks = s.tasks → stepsLeft p + 1 ≤ stepsLeft t.phase →
      left? (setPhase u i t p) j + (if (i == j) = true then 1 else 0) ≤ left? s j := by
    intro i t p u ht hu hp
    rw [left_setPhase (by rw [hu]; exact ht)]
    by_cases e : i = j
    · subst e; simp [left_of ht]; exact hp
    · simp [e, left?, hu]
  cases l with
  | client i name d c =>
    simp only [istep, Option.some.injEq] at h
    subst h
    rw [left_append rfl]
    simp [OfHandler]
  | other i n => simp only [istep, Option.some.injEq] at h; subst h; simp [OfHandler, left?]
  | serve i now order =>
    simp only [istep] at h
    split at h
    · rename_i t ht
      split at h
      · rename_i n hp hn
        have hph := hp
        repeat' split at h
        all_goals first
          | cases h; done
          | (simp only [Option.some.injEq] at h; subst h
             refine key ht rfl ?_
             rw [hph]
             (try split) <;> simp [stepsLeft])
      · cases h
    · cases h
  | send i dst =>
    simp only [istep] at h
    split at h
    · rename_i t ht
      split at h
      · rename_i hph
        simp only [Option.some.injEq] at h; subst h
        refine key ht rfl ?_
        rw [hph]; split <;> simp [stepsLeft]
      · rename_i a order limit counter hph
        split at h
        · simp only [Option.some.injEq] at h; subst h
          refine key ht rfl ?_
          rw [hph]; split <;> simp [stepsLeft]
        · rename_i hlim
          have hl : (limit - 1 + 1).toNat + 1 = (limit + 1).toNat := by omega
          split at h
          · simp only [Option.some.injEq] at h; subst h
            have := left_append (s := setPhase s i t (.waiting s.tasks.length order (limit - 1) counter)) (j := j)
              (t := ⟨‹Nat›, t.name, t.datum, { t.config with count := t.config.count + 1 }, some i, .begun⟩) rfl
            rw [this]
            refine key ht rfl ?_
            rw [hph]; simp only [stepsLeft]; omega
          · simp only [Option.some.injEq] at h; subst h
            refine key ht rfl ?_
            rw [hph]
            have := stepsLeft_after (repl := replication s t) (ok := false) (order := order) (limit := limit - 1) (counter := counter)
            simp only [stepsLeft] at this ⊢; omega
      · cases h
    · cases h
  | back i =>
    simp only [istep] at h
    split at h
    · rename_i t ht
      split at h
      · rename_i k order limit counter hph
        split at h
        · split at h
          all_goals
            simp only [Option.some.injEq] at h; subst h
            refine key ht rfl ?_
            rw [hph]
            have := fun ok => stepsLeft_after (repl := replication s t) (ok := ok) (order := order) (limit := limit) (counter := counter)
            simp only [stepsLeft] at this ⊢
            exact Nat.le_trans (Nat.add_le_add_right (this _) 1) (by omega)
        · cases h
      · cases h
    · cases h

theorem left_exec {X : DS.XEnv} (j : Nat) : ∀ (ls : List ILabel) {s s' : IState}, iexec X s ls = some s' →
    left? s' j + ls.countP (OfHandler j) ≤ left? s j
  | [], s, s', h => by simp only [iexec, Option.some.injEq] at h; subst h; simp
  | l :: ls, s, s', h => by
    simp only [iexec] at h
    cases h1 : istep X s l with
    | none => rw [h1] at h; cases h
    | some s1 =>
      rw [h1] at h
      have := left_exec j ls (s := s1) (s' := s') h
      have := left_step h1 j
      rw [List.countP_cons]
      omega

/-- A call that a handler waits for has been made. -/
def Made (s : IState) : Prop := ∀ t ∈ s.tasks, ∀ k order limit counter, t.phase = .waiting k order limit counter → k < s.tasks.length

theorem made_phase {s : IState} (hi : Made s) {j : Nat} {t : Task} {p : Phase} (hp : ∀ k order limit counter, p ≠ .waiting k order limit counter) :
    Made (setPhase s j t p) := by
  intro t' ht' k order limit counter hk
  simp only [setPhase, List.length_set] at ht' ⊢
  rcases List.mem_or_eq_of_mem_set ht' with ht' | rfl
  · exact hi t' ht' k order limit counter hk
  · exact absurd hk (hp k order limit counter)

theorem made_step {X : DS.XEnv} {s s' : IState} {l : ILabel} (hi : Made s) (h : istep X s l = some s') : Made s' := by
  have aft : ∀ {repl ok order limit counter} k o l c, afterCall repl ok order limit counter ≠ .waiting k o l c := by
    intro repl ok order limit counter k o l c
    unfold afterCall
    simp only
    generalize (if ok = true then counter + 1 else counter) = d
    split <;> simp
  have hn : ∀ (nodes : List Node), Made { s with nodes := nodes } := fun _ => hi
  cases l with
  | client i name d c =>
    simp only [istep, Option.some.injEq] at h
    subst h
    intro t ht k order limit counter hk
    simp only [List.mem_append, List.mem_singleton, List.length_append, List.length_singleton] at ht ⊢
    rcases ht with ht | rfl
    · have := hi t ht k order limit counter hk; omega
    · cases hk
  | other i n => simp only [istep, Option.some.injEq] at h; subst h; exact hi
  | serve i now order =>
    simp only [istep] at h
    repeat' split at h
    all_goals first
      | cases h; done
      | (simp only [Option.some.injEq] at h; subst h
         refine made_phase (by first | exact hi | exact hn _) ?_
         intro k o l c
         (try split) <;> simp)
  | send i dst =>
    simp only [istep] at h
    split at h
    · rename_i t ht
      split at h
      · simp only [Option.some.injEq] at h; subst h; exact made_phase hi (by simp)
      · rename_i a order limit counter hph
        split at h
        · simp only [Option.some.injEq] at h; subst h; exact made_phase hi (by simp)
        · split at h
          · simp only [Option.some.injEq] at h; subst h
            intro t' ht' k order limit counter hk
            simp only [setPhase, List.mem_append, List.mem_singleton, List.length_append, List.length_singleton, List.length_set] at ht' ⊢
            rcases ht' with ht' | rfl
            · rcases List.mem_or_eq_of_mem_set ht' with ht' | rfl
              · have := hi t' ht' k order limit counter hk; omega
              · simp only [Phase.waiting.injEq] at hk; omega
            · cases hk
          · simp only [Option.some.injEq] at h; subst h; exact made_phase hi aft
      · cases h
    · cases h
  | back i =>
    simp only [istep] at h
    repeat' split at h
    all_goals first
      | cases h; done
      | (simp only [Option.some.injEq] at h; subst h; exact made_phase hi aft)

theorem made_exec {X : DS.XEnv} : ∀ (ls : List ILabel) {s s' : IState}, Made s → iexec X s ls = some s' → Made s'
  | [], s, s', hi, h => by simp only [iexec, Option.some.injEq] at h; subst h; exact hi
  | l :: ls, s, s', hi, h => by
    simp only [iexec] at h
    cases h1 : istep X s l with
    | none => rw [h1] at h; cases h
    | some s1 => rw [h1] at h; exact made_exec ls (made_step hi h1) h

/-- The local part of a safe insert is carried out. -/
theorem safe_serve {X : DS.XEnv} {now : Int} {n : Node} {name : String} {d : Datum} {c : InsertConfig} (hs : Safe n name d) :
    ∃ m dt r x, DS.get X now n.dataset name = .ok (m, dt) ∧ localInsert (Int64.ofInt (now / 1000000000)) dt d c = .ok r ∧ m.get? name = some x := by
  obtain ⟨hw, ⟨k, v, rfl⟩, hx⟩ := hs
  obtain ⟨m, dt, c0, h1, h2, -, -, -, h5⟩ := DS.get_ok (X := X) (now := now) hw name
  have hfit : Store.WF dt.dbMap ∧ dt.initData.sources.isSome = true ∧ ∃ x, m.get? name = some x := by
    cases hl : DS.lookup now n.dataset name with
    | none =>
      have := DS.get_new (X := X) hl
      rw [h1] at this
      simp only [Res.ok.injEq, Prod.mk.injEq] at this
      rw [this.2, this.1]
      exact ⟨Store.wf_nil, rfl, _, AMap.get?_set_self _ _ _⟩
    | some s0 =>
      obtain ⟨e1, e2⟩ := h5 s0 hl
      obtain ⟨a, b⟩ := hx s0 (DS.lookup_some.mp hl).1
      rw [e1]
      exact ⟨a, b, _, e2⟩
  obtain ⟨g1, g2, x, g3⟩ := hfit
  refine ⟨m, dt, ?_⟩
  have hp := C71_wellformed_insert_partial (Int64.ofInt (now / 1000000000)) [] (fun _ _ _ (w : Unit) => (w, none)) dt () k v (some c) g1 (by rw [h2]; rfl) g2
  cases hi : Data.insert (Int64.ofInt (now / 1000000000)) [] (fun _ _ _ (w : Unit) => (w, none)) dt () (some ⟨some k, some v⟩) (some c) with
  | panic => exact absurd hi hp
  | err e => exact absurd hi Iso.insert_no_err
  | ok out => exact ⟨_, x, h1, by unfold localInsert; rw [hi]; rfl, g3⟩

end Clu
open Clu Net

/-- C182: a handler of an insert comes to its end within fourteen steps of its own, whatever the others do. -/
theorem C182_steps (X : DS.XEnv) (nodes : List Node) (ls : List ILabel) (s : IState) (h : iexec X ⟨nodes, []⟩ ls = some s) (j : Nat) :
    ls.countP (OfHandler j) ≤ 14 := by
  have := left_exec j ls h
  simp only [left?, List.getElem?_nil, Option.map_none, Option.getD_none] at this
  omega

namespace Clu

theorem goes_on {X : DS.XEnv} {s : IState} (hm : Made s) {j : Nat} {t : Task} (ht : s.tasks[j]? = some t)
    (hs : t.phase = .begun → ∃ n, s.nodes[t.node]? = some n ∧ Safe n t.name t.datum) (ha : ¬ Answered s j) :
    ∃ l s', OfHandler j l = true ∧ istep X s l = some s' := by
  suffices h : ∃ l, OfHandler j l = true ∧ istep X s l ≠ none by
    obtain ⟨l, h1, h2⟩ := h
    exact ⟨l, (istep X s l).get (Option.isSome_iff_ne_none.mpr h2), h1, by simp⟩
  cases hp : t.phase with
  | begun =>
    obtain ⟨n, hn, hs⟩ := hs hp
    obtain ⟨m, dt, r, x, h1, h2, h3⟩ := safe_serve (X := X) (now := 0) (c := t.config) hs
    refine ⟨.serve j 0 [], by simp [OfHandler], ?_⟩
    simp only [istep, ht, hp, hn, h1, h2, h3]
    split <;> simp
  | sending order limit counter =>
    refine ⟨.send j none, by simp [OfHandler], ?_⟩
    simp only [istep, ht, hp]
    cases order <;> simp only <;> (try split) <;> simp
  | waiting k order limit counter =>
    refine ⟨.back j, by simp [OfHandler], ?_⟩
    have hk := hm t (List.mem_of_getElem? ht) k order limit counter hp
    simp only [istep, ht, hp, List.getElem?_eq_getElem hk]
    split <;> simp
  | over err => exact absurd ⟨t, err, ht, hp⟩ ha

theorem alone {X : DS.XEnv} {j : Nat} : ∀ (f : Nat) {s : IState} {t : Task}, left? s j ≤ f → left? s j ≤ 14 → Made s → s.tasks[j]? = some t →
    (t.phase = .begun → ∃ n, s.nodes[t.node]? = some n ∧ Safe n t.name t.datum) →
    ∃ ls s', (∀ l ∈ ls, OfHandler j l = true) ∧ iexec X s ls = some s' ∧ Answered s' j := by
  intro f
  induction f with
  | zero =>
    intro s t hl h14 hm ht hs
    refine ⟨[], s, by simp, rfl, t, ?_⟩
    rw [left_of ht] at hl
    cases hp : t.phase with
    | over err => exact ⟨err, ht, rfl⟩
    | _ => rw [hp] at hl; simp [stepsLeft] at hl <;> omega
  | succ f ih =>
    intro s t hl h14 hm ht hs
    by_cases ha : Answered s j
    · exact ⟨[], s, by simp, rfl, ha⟩
    · obtain ⟨l, s1, h1, h2⟩ := goes_on (X := X) hm ht hs ha
      have hlt := left_step h2 j
      rw [if_pos h1] at hlt
      cases ht1 : s1.tasks[j]? with
      | none => simp [left?, ht1] at hlt; simp [left?] at h14; omega
      | some t1 =>
        obtain ⟨ls, s2, g1, g2, g3⟩ := ih (by omega) (by omega) (made_step hm h2) ht1 (by
          intro e
          rw [left_of ht1, e] at hlt
          simp [stepsLeft] at hlt
          omega)
        refine ⟨l :: ls, s2, ?_, ?_, g3⟩
        · intro l' hl'
          rcases List.mem_cons.mp hl' with rfl | hl'
          · exact h1
          · exact g1 l' hl'
        · simp only [iexec, h2]; exact g2

end Clu
/-- C182: until an insert is answered its handler can go on, whatever the others do, unless the insert crashes the node. -/
theorem C182_goes_on (X : DS.XEnv) (nodes : List Node) (ls : List ILabel) (s : IState) (h : iexec X ⟨nodes, []⟩ ls = some s)
    (j : Nat) (t : Task) (n : Node) (ht : s.tasks[j]? = some t) (hn : s.nodes[t.node]? = some n) (hs : Safe n t.name t.datum) (ha : ¬ Answered s j) :
    ∃ l, OfHandler j l = true ∧ istep X s l ≠ none := by
  obtain ⟨l, s', h1, h2⟩ := goes_on (X := X) (made_exec ls (s := ⟨nodes, []⟩) (fun t ht => by simp at ht) h) ht (fun _ => ⟨n, hn, hs⟩) ha
  exact ⟨l, h1, by simp [h2]⟩

/-- C182: ... and so it answers, in at most fourteen steps, even if nobody else does anything. -/
theorem C182_answered (X : DS.XEnv) (nodes : List Node) (ls : List ILabel) (s : IState) (h : iexec X ⟨nodes, []⟩ ls = some s)
    (j : Nat) (t : Task) (n : Node) (ht : s.tasks[j]? = some t) (hn : s.nodes[t.node]? = some n) (hs : Safe n t.name t.datum) :
    ∃ ls' s', ls'.length ≤ 14 ∧ (∀ l ∈ ls', OfHandler j l = true) ∧ iexec X s ls' = some s' ∧ Answered s' j := by
  have hl := left_exec j ls h
  have h14 : left? s j ≤ 14 := by
    simp only [left?, List.getElem?_nil, Option.map_none, Option.getD_none] at hl ⊢
    omega
  obtain ⟨ls', s', h1, h2, h3⟩ := alone (X := X) 14 h14 h14 (made_exec ls (s := ⟨nodes, []⟩) (fun t ht => by simp at ht) h) ht (fun _ => ⟨n, hn, hs⟩)
  refine ⟨ls', s', ?_, h1, h2, h3⟩
  have := left_exec j ls' h2
  rw [List.countP_eq_length.mpr h1] at this
  omega

/-- The second of three nodes has been called by the first, which waits for it: both can go on. -/
theorem C182_example : Safe exM "a" exD ∧ ∃ s t c, iexec (DS.toy 0) ⟨[exM, exM, exM], []⟩ (exThree.take 3) = some s ∧ s.tasks[0]? = some t ∧
    s.tasks[1]? = some c ∧ c.node = 1 ∧ s.nodes[1]? = some exM ∧ c.name = "a" ∧ c.datum = exD ∧ ¬ Answered s 0 ∧ ¬ Answered s 1 ∧
    ∃ ls s', ls.length ≤ 14 ∧ (∀ l ∈ ls, OfHandler 1 l = true) ∧ iexec (DS.toy 0) s ls = some s' ∧ Answered s' 1 := by
  have hsafe : Safe exM "a" exD := by
    have hg : ∀ k x, exM.dataset.get? k = some x → k = "a" ∧ x = ⟨Data.newData exRepl, none⟩ := by
      intro k x h
      have hm := AMap.mem_of_get? h
      simp only [exM, newNode, List.mem_singleton, Prod.mk.injEq] at hm
      exact hm
    refine ⟨⟨by unfold exM newNode AMap.Nodup; simp [AMap.keys], ?_⟩, ⟨_, _, rfl⟩, ?_⟩
    · intro k x h
      obtain ⟨rfl, rfl⟩ := hg k x h
      exact ⟨exRepl, rfl, rfl⟩
    · intro x h
      obtain ⟨-, rfl⟩ := hg _ x h
      exact ⟨Store.wf_nil, rfl⟩
  have hx : (iexec (DS.toy 0) ⟨[exM, exM, exM], []⟩ (exThree.take 3)).any (fun (s : IState) => (s.tasks[0]?).any fun (t : Task) =>
      (s.tasks[1]?).any fun (c : Task) => (decide (c.node = 1 ∧ c.name = "a" ∧ c.datum = exD) && (match t.phase with | .over _ => false | _ => true)) &&
      (match c.phase with | .over _ => false | _ => true)) = true := by
    decide +kernel
  obtain ⟨s, hs, hx⟩ := DS.any_some hx
  obtain ⟨t, ht, hx⟩ := DS.any_some hx
  obtain ⟨c, hc, hx⟩ := DS.any_some hx
  simp only [Bool.and_eq_true, decide_eq_true_eq] at hx
  obtain ⟨⟨⟨h1, h2, h3⟩, h4⟩, h5⟩ := hx
  have hn : s.nodes[1]? = some exM := by
    have : (iexec (DS.toy 0) ⟨[exM, exM, exM], []⟩ (exThree.take 3)).map (fun s => s.nodes[1]?) = some (some exM) := by with_unfolding_all rfl
    rw [hs] at this
    simpa using this
  refine ⟨hsafe, s, t, c, hs, ht, hc, h1, hn, h2, h3, ?_, ?_, ?_⟩
  · rintro ⟨t', e, g1, g2⟩
    rw [ht] at g1; cases g1
    rw [g2] at h4; cases h4
  · rintro ⟨t', e, g1, g2⟩
    rw [hc] at g1; cases g1
    rw [g2] at h5; cases h5
  · exact C182_answered (DS.toy 0) [exM, exM, exM] (exThree.take 3) s hs 1 c exM hc (by rw [h1]; exact hn) (by rw [h2, h3]; exact hsafe)

end Veri
