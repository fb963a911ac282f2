import Verif.Cluster.Query
import Verif.Dataset.Toy
/-
C19 for a whole cluster.
-/
set_option autoImplicit false
namespace Veri
namespace Clu
open Net

/-- What the model of one insert (Verif/Data) does to the data set is what its local part does. -/
theorem insert_local {σ : Type} (now : Int64) (order : List SourceId) (call : Data.RemoteInsert σ) (dt : Data) (w : σ) (d : Datum) (c : InsertConfig)
    (out : Data.InsertOut σ) (h : Data.insert now order call dt w (some d) (some c) = .ok out) :
    ∃ err loop, localInsert now dt d c = .ok (out.data, err, loop) ∧ (loop = false → out.world = w ∧ out.err = err) := by
  unfold localInsert
  unfold Data.insert at h ⊢
  by_cases ho : dt.overTarget = true
  · rw [if_pos ho] at h ⊢
    cases h
    exact ⟨_, _, rfl, fun _ => ⟨rfl, rfl⟩⟩
  · rw [if_neg ho] at h ⊢
    simp only at h ⊢
    cases hs : Store.insertBDMap now dt.initData.dbMap (some d) (some c) with
    | err e => rw [hs] at h; cases h
    | panic => rw [hs] at h; cases h
    | ok r =>
      rw [hs] at h
      simp only [Res.bind] at h ⊢
      cases hc : dt.initData.config with
      | none => rw [hc] at h; cases h
      | some dc =>
        rw [hc] at h
        simp only [Res.ofOption, Option.getD_some] at h ⊢
        split at h
        · rename_i hcond
          rw [if_pos hcond]
          cases hsrc : dt.initData.sources with
          | none => rw [hsrc] at h; cases h
          | some src =>
            rw [hsrc] at h
            simp only at h ⊢
            cases h
            have hdc : dt.config = some dc := (Data.initData_config dt).symm.trans hc
            exact ⟨_, _, rfl, fun hl => by simp [hdc, ho, hcond.1, hcond.2] at hl⟩
        · rename_i hcond
          rw [if_neg hcond]
          cases h
          exact ⟨_, _, rfl, fun _ => ⟨rfl, rfl⟩⟩

/-- The calls a handler has made. -/
def children (ts : List Task) (j : Nat) : Nat := ts.countP fun t => decide (t.parent = some j)

/-- What the phase of handler `j` says about the number of its calls. -/
def Fits (n : Nat) (t : Task) : Prop :=
  match t.phase with
  | .begun => n = 0
  | .sending _ limit _ => (n : Int) + limit ≤ 5 ∧ -1 ≤ limit ∧ t.config.count = 0
  | .waiting _ _ limit _ => (n : Int) + limit ≤ 5 ∧ -1 ≤ limit ∧ t.config.count = 0
  | .over _ => n ≤ 6 ∧ (t.config.count ≠ 0 → n = 0)

structure IInv (s : IState) : Prop where
  fits : ∀ (j : Nat) (t : Task), s.tasks[j]? = some t → Fits (children s.tasks j) t
  parents : ∀ t ∈ s.tasks, ∀ j, t.parent = some j → j < s.tasks.length ∧ t.config.count ≠ 0

theorem children_set {ts : List Task} {j : Nat} {t : Task} {p : Phase} (h : ts[j]? = some t) (i : Nat) :
    children (ts.set j { t with phase := p }) i = children ts i := by
  unfold children
  induction ts generalizing j with
  | nil => rfl
  | cons a ts ih =>
    cases j with
    | zero =>
      simp only [List.getElem?_cons_zero, Option.some.injEq] at h
      subst h
      simp [List.countP_cons]
    | succ j =>
      simp only [List.getElem?_cons_succ] at h
      simp [List.countP_cons, ih h]

/-- A handler changes its phase and makes no call. -/
theorem iinv_phase {s : IState} (hi : IInv s) {j : Nat} {t : Task} {p : Phase} (h : s.tasks[j]? = some t)
    (hp : Fits (children s.tasks j) { t with phase := p }) : IInv (setPhase s j t p) := by
  constructor
  · intro i t' hi'
    simp only [setPhase] at hi' ⊢
    rw [children_set h]
    by_cases hij : j = i
    · subst hij
      rw [List.getElem?_set_self (List.getElem?_eq_some_iff.mp h).1] at hi'
      cases hi'
      exact hp
    · rw [List.getElem?_set_ne hij] at hi'
      exact hi.fits i t' hi'
  · intro t' ht' i hp'
    simp only [setPhase, List.length_set] at ht' ⊢
    rcases List.mem_or_eq_of_mem_set ht' with ht' | rfl
    · exact hi.parents t' ht' i hp'
    · exact hi.parents t (List.mem_of_getElem? h) i hp'

theorem iinv_nodes {s : IState} (hi : IInv s) (nodes : List Node) : IInv { s with nodes := nodes } := ⟨hi.fits, hi.parents⟩

theorem iinv_append {s : IState} (hi : IInv s) (t : Task) (h0 : t.phase = .begun)
    (hp : ∀ j, t.parent = some j → ∃ tj, s.tasks[j]? = some tj ∧ Fits (children s.tasks j + 1) tj ∧ t.config.count ≠ 0) :
    IInv { s with tasks := s.tasks ++ [t] } := by
  have hch : ∀ i, children (s.tasks ++ [t]) i = children s.tasks i + if t.parent = some i then 1 else 0 := by
    intro i
    simp only [children, List.countP_append, List.countP_cons, List.countP_nil, decide_eq_true_eq]
    omega
  constructor
  · intro i t' hi'
    simp only at hi' ⊢
    rw [hch, List.getElem?_append] at *
    split at hi'
    · split
      · rename_i hpar
        obtain ⟨tj, htj, hf, -⟩ := hp i hpar
        rw [hi'] at htj
        cases htj
        exact hf
      · exact hi.fits i t' hi'
    · rename_i hlt
      have hm := List.mem_of_getElem? hi'
      rw [List.mem_singleton.mp hm]
      unfold Fits
      rw [h0]
      simp only
      have hz : children s.tasks i = 0 := by
        apply List.countP_eq_zero.mpr
        intro a ha hpa
        have := (hi.parents a ha i (of_decide_eq_true hpa)).1
        omega
      rw [hz]
      split
      · rename_i hpar
        obtain ⟨tj, htj, -⟩ := hp i hpar
        exact absurd (List.getElem?_eq_some_iff.mp htj).1 hlt
      · rfl
  · intro t' ht' j hp'
    simp only [List.length_append, List.length_singleton]
    rcases List.mem_append.mp ht' with ht' | ht'
    · have := hi.parents t' ht' j hp'
      exact ⟨by omega, this.2⟩
    · rw [List.mem_singleton.mp ht'] at hp' ⊢
      obtain ⟨tj, htj, -, hc⟩ := hp j hp'
      have := (List.getElem?_eq_some_iff.mp htj).1
      exact ⟨by omega, hc⟩

theorem fits_after {n : Nat} {t : Task} {order : List SourceId} {limit : Int} {counter : UInt32} {ok : Bool} {r : UInt32}
    (h1 : (n : Int) + limit ≤ 5) (h2 : -1 ≤ limit) (h3 : t.config.count = 0) :
    Fits n { t with phase := afterCall r ok order limit counter } := by
  unfold afterCall
  dsimp only
  generalize (if ok = true then counter + 1 else counter) = c
  by_cases hc : c ≥ r
  · rw [if_pos hc]
    exact ⟨by omega, fun hc => absurd h3 hc⟩
  · rw [if_neg hc]
    exact ⟨h1, h2, h3⟩

theorem localInsert_loop {now : Int64} {dt dt' : Data} {d : Datum} {c : InsertConfig} {err : Option Err}
    (h : localInsert now dt d c = .ok (dt', err, true)) : c.count = 0 := by
  unfold localInsert at h
  generalize Data.insert now [] (fun _ _ _ (w : Unit) => (w, none)) dt () (some d) (some c) = r at h
  cases r with
  | ok out =>
    simp only [Res.bind, Res.ok.injEq, Prod.mk.injEq, decide_eq_true_eq] at h
    exact h.2.2.2.2
  | err e => cases h
  | panic => cases h

theorem iinv_step {X : DS.XEnv} {s s' : IState} {l : ILabel} (hi : IInv s) (h : istep X s l = some s') : IInv s' := by
  cases l with
  | client i name datum config =>
    simp only [istep, Option.some.injEq] at h
    subst h
    exact iinv_append hi _ rfl (fun j hj => by cases hj)
  | serve j now order =>
    simp only [istep] at h
    split at h
    · rename_i t ht
      split at h
      · rename_i n hph hn
        have hf := hi.fits j t ht
        simp only [Fits, hph] at hf
        split at h
        · cases h
          exact iinv_phase hi ht (by simp [Fits, hf])
        · split at h
          · rename_i m dt hg
            split at h
            · rename_i dt' err loop hl
              split at h
              · rename_i x hx
                cases h
                refine iinv_phase (iinv_nodes hi _) ht ?_
                cases loop with
                | true => simp [Fits, hf, localInsert_loop hl]
                | false => simp [Fits, hf]
              · cases h
            · cases h
          · cases h
            exact iinv_phase hi ht (by simp [Fits, hf])
          · cases h
      · cases h
    · cases h
  | send j dst =>
    simp only [istep] at h
    split at h
    · rename_i t ht
      have hf := hi.fits j t ht
      split at h
      · rename_i limit counter hph
        simp only [Fits, hph] at hf
        cases h
        refine iinv_phase hi ht ?_
        simp only [Fits]
        exact ⟨by omega, fun hc => absurd hf.2.2 hc⟩
      · rename_i src order limit counter hph
        simp only [Fits, hph] at hf
        split at h
        · cases h
          refine iinv_phase hi ht ?_
          simp only [Fits]
          exact ⟨by omega, fun hc => absurd hf.2.2 hc⟩
        · rename_i hlim
          split at h
          · rename_i i
            cases h
            have h1 : IInv (setPhase s j t (.waiting s.tasks.length order (limit - 1) counter)) := by
              refine iinv_phase hi ht ?_
              simp only [Fits]
              exact ⟨by omega, by omega, hf.2.2⟩
            refine iinv_append h1 _ rfl ?_
            intro j' hj'
            cases hj'
            refine ⟨{ t with phase := .waiting s.tasks.length order (limit - 1) counter }, ?_, ?_, ?_⟩
            · exact List.getElem?_set_self (List.getElem?_eq_some_iff.mp ht).1
            · have := children_set (p := .waiting s.tasks.length order (limit - 1) counter) ht j
              simp only [setPhase] at *
              rw [this]
              simp only [Fits]
              exact ⟨by omega, by omega, hf.2.2⟩
            · simp [hf.2.2]
          · cases h
            exact iinv_phase hi ht (fits_after (by omega) (by omega) hf.2.2)
      · cases h
    · cases h
  | back j =>
    simp only [istep] at h
    split at h
    · rename_i t ht
      have hf := hi.fits j t ht
      split at h
      · rename_i k order limit counter hph
        simp only [Fits, hph] at hf
        split at h
        · split at h <;> cases h <;> exact iinv_phase hi ht (fits_after hf.1 hf.2.1 hf.2.2)
        · cases h
      · cases h
    · cases h
  | other i n =>
    simp only [istep, Option.some.injEq] at h
    subst h
    exact iinv_nodes hi _

theorem iinv_exec {X : DS.XEnv} : ∀ (ls : List ILabel) {s s' : IState}, IInv s → iexec X s ls = some s' → IInv s'
  | [], _, _, hi, h => by cases h; exact hi
  | l :: ls, s, s', hi, h => by
    rw [iexec] at h
    cases hs : istep X s l with
    | none => rw [hs] at h; cases h
    | some s1 => rw [hs] at h; exact iinv_exec ls (iinv_step hi hs) h

end Clu

open Clu Net

/-- Request `k` was caused by request `j`: it was made by its handler, or by the handler of one caused by it. -/
inductive Clu.Caused (s : IState) (j : Nat) : Nat → Prop where
  | call {k : Nat} {t : Task} : s.tasks[k]? = some t → t.parent = some j → Caused s j k
  | more {i k : Nat} {t : Task} : Caused s j i → s.tasks[k]? = some t → t.parent = some i → Caused s j k

/-- C19 for a cluster: whatever nodes there are, whatever they do, whatever calls reach which nodes and in whichever order
everything happens: one insert causes at most six others, and those carry the mark. -/
theorem C19_cluster (X : DS.XEnv) (nodes : List Node) (ls : List ILabel) (s : IState) (h : iexec X ⟨nodes, []⟩ ls = some s) (j : Nat) :
    (∀ k t, Caused s j k → s.tasks[k]? = some t → t.parent = some j ∧ t.config.count ≠ 0) ∧
    ∃ l : List Nat, l.length ≤ 6 ∧ ∀ k, Caused s j k → k ∈ l := by
  have hi : IInv s := iinv_exec ls (s := ⟨nodes, []⟩) ⟨fun j t ht => by simp at ht, fun t ht => by simp at ht⟩ h
  have hsix : ∀ i, children s.tasks i ≤ 6 := by
    intro i
    cases ht : s.tasks[i]? with
    | none =>
      have hz : children s.tasks i = 0 := by
        apply List.countP_eq_zero.mpr
        intro a ha hpa
        have := (hi.parents a ha i (of_decide_eq_true hpa)).1
        have := List.getElem?_eq_none_iff.mp ht
        omega
      omega
    | some t =>
      have := hi.fits i t ht
      unfold Fits at this
      split at this <;> omega
  have hmark : ∀ (i : Nat) (t : Task), s.tasks[i]? = some t → t.config.count ≠ 0 → children s.tasks i = 0 := by
    intro i t ht hc
    have := hi.fits i t ht
    unfold Fits at this
    split at this
    · exact this
    · exact absurd this.2.2 hc
    · exact absurd this.2.2 hc
    · exact this.2 hc
  have hdirect : ∀ k, Caused s j k → ∃ t, s.tasks[k]? = some t ∧ t.parent = some j ∧ t.config.count ≠ 0 := by
    intro k hk
    induction hk with
    | call hk hp => exact ⟨_, hk, hp, (hi.parents _ (List.mem_of_getElem? hk) j hp).2⟩
    | more hc hk hp ih =>
      obtain ⟨t, ht, -, hcnt⟩ := ih
      have h0 := hmark _ t ht hcnt
      have := List.countP_eq_zero.mp h0 _ (List.mem_of_getElem? hk)
      simp [hp] at this
  constructor
  · intro k t hk ht
    obtain ⟨t', ht', h1, h2⟩ := hdirect k hk
    rw [ht] at ht'
    cases ht'
    exact ⟨h1, h2⟩
  · have hlist : ∀ (ts : List Task) (off : Nat), ∃ l : List Nat, l.length = ts.countP (fun t => decide (t.parent = some j)) ∧
        ∀ k t, ts[k]? = some t → t.parent = some j → off + k ∈ l := by
      intro ts
      induction ts with
      | nil => intro off; exact ⟨[], rfl, by simp⟩
      | cons a ts ih =>
        intro off
        obtain ⟨l, h1, h2⟩ := ih (off + 1)
        by_cases ha : a.parent = some j
        · refine ⟨off :: l, by simp [List.countP_cons, h1, ha], ?_⟩
          intro k t hk hp
          cases k with
          | zero => simp
          | succ k =>
            have := h2 k t hk hp
            rw [show off + (k + 1) = off + 1 + k by omega]
            exact List.mem_cons_of_mem _ this
        · refine ⟨l, by simp [List.countP_cons, h1, ha], ?_⟩
          intro k t hk hp
          cases k with
          | zero => simp at hk; subst hk; exact absurd hp ha
          | succ k =>
            have := h2 k t hk hp
            rw [show off + (k + 1) = off + 1 + k by omega]
            exact this
    obtain ⟨l, h1, h2⟩ := hlist s.tasks 0
    refine ⟨l, by rw [h1]; exact hsix j, ?_⟩
    intro k hk
    obtain ⟨t, ht, hp, -⟩ := hdirect k hk
    have := h2 k t ht hp
    rwa [Nat.zero_add] at this

namespace Clu

def exRepl : DataConfig := { DS.defaultConfig "a" with replicationOnInsert := 3, enforceReplicationOnInsert := true }
def exM : Node := newNode 7000 ["me:7000"] [] [("a", ⟨Data.newData exRepl, none⟩)]
def exD : Datum := ⟨some (Store.exKey 1), some (Store.exVal 1)⟩

/-- Three nodes, replication three: the call comes back to the first node itself, the second one is lost, the third one reaches
another node, the fourth one the third node. -/
def exIns : List ILabel := [.client 0 "a" exD ⟨0, 0⟩, .serve 0 0 ["x", "y", "z", "w"], .send 0 (some 0), .serve 1 0 ["x", "y"], .back 0,
  .send 0 none, .send 0 (some 1), .serve 2 0 ["x"], .back 0]

end Clu

example : ∃ s, iexec (DS.toy 0) ⟨[exM, exM, exM], []⟩ exIns = some s ∧ s.tasks.length = 3 ∧ Caused s 0 1 ∧ Caused s 0 2 := by
  have h : (iexec (DS.toy 0) ⟨[exM, exM, exM], []⟩ exIns).any (fun (s : IState) => decide (s.tasks.length = 3 ∧
    s.tasks.map (·.parent) = [none, some 0, some 0])) = true := by decide +kernel
  cases he : iexec (DS.toy 0) ⟨[exM, exM, exM], []⟩ exIns with
  | none => rw [he] at h; cases h
  | some s =>
    rw [he] at h
    obtain ⟨h1, h2⟩ := of_decide_eq_true h
    refine ⟨s, rfl, h1, ?_, ?_⟩
    all_goals
      obtain ⟨nodes, tasks⟩ := s
      match tasks, h1, h2 with
      | [a, b, c], _, h2 =>
        simp only [List.map_cons, List.map_nil, List.cons.injEq, and_true] at h2
        first
          | exact .call (t := b) rfl h2.2.1
          | exact .call (t := c) rfl h2.2.2

end Veri
