import Verif.Cluster.Replicas
import Verif.Gossip.Sources
import Mathlib.Data.List.Induction
/-
C99 with the sources: the calls of an insert reach different nodes if the sources of the data set do.
-/
set_option autoImplicit false
namespace Veri
open Net

namespace Clu

/-- Each call that request `j` makes goes where `reach` says for the source called, or fails. -/
def CallsReach (reach : SourceId → Option Nat) (X : DS.XEnv) (s0 : IState) (ls : List ILabel) (j : Nat) : Prop :=
  ∀ ls1 i s1 t a order limit counter, ls1 ++ [ILabel.send j (some i)] <+: ls → iexec X s0 ls1 = some s1 → s1.tasks[j]? = some t →
    t.phase = .sending (a :: order) limit counter → reach a = some i

/-- The sources that request `j` goes through are different nodes, other than `i`. -/
def SourcesApart (reach : SourceId → Option Nat) (ls : List ILabel) (j i : Nat) : Prop :=
  ∀ now order, ILabel.serve j now order ∈ ls → order.Nodup ∧ (∀ a ∈ order, reach a ≠ some i) ∧
    ∀ a ∈ order, ∀ b ∈ order, reach a = reach b → reach a ≠ none → a = b

/-- What is left of the sources. -/
def left : Phase → List SourceId
  | .begun => []
  | .sending order _ _ => order
  | .waiting _ order _ _ => order
  | .over _ => []

/-- The children of task `j` are at different nodes, reached from sources that are not left. -/
structure Apart (reach : SourceId → Option Nat) (j i : Nat) (s : IState) : Prop where
  fresh : ∀ t, s.tasks[j]? = some t → t.phase = .begun → ∀ (k : Nat) (c : Task), s.tasks[k]? = some c → c.parent ≠ some j
  unborn : s.tasks[j]? = none → ∀ (k : Nat) (c : Task), s.tasks[k]? = some c → c.parent ≠ some j
  other : ∀ (k : Nat) (c : Task), s.tasks[k]? = some c → c.parent = some j → c.node ≠ i
  apart : ∀ (k : Nat) (c : Task) (k' : Nat) (c' : Task), s.tasks[k]? = some c → c.parent = some j → s.tasks[k']? = some c' →
    c'.parent = some j → k ≠ k' → c.node ≠ c'.node
  rest : ∀ t, s.tasks[j]? = some t → (left t.phase).Nodup ∧ (∀ a ∈ left t.phase, reach a ≠ some i) ∧
    (∀ a ∈ left t.phase, ∀ b ∈ left t.phase, reach a = reach b → reach a ≠ none → a = b) ∧
    ∀ a ∈ left t.phase, ∀ (k : Nat) (c : Task), s.tasks[k]? = some c → c.parent = some j → reach a ≠ some c.node

theorem get_setPhase {s : IState} {j : Nat} {t : Task} (ht : s.tasks[j]? = some t) (p : Phase) (k : Nat) (c : Task) :
    (setPhase s j t p).tasks[k]? = some c ↔ (k = j ∧ c = { t with phase := p }) ∨ (k ≠ j ∧ s.tasks[k]? = some c) := by
  have hj : j < s.tasks.length := (List.getElem?_eq_some_iff.mp ht).1
  unfold setPhase
  simp only [List.getElem?_set]
  by_cases h : j = k
  · subst h
    simp [hj, eq_comm]
  · simp [h, Ne.symm h]

theorem get_append {ts : List Task} {t : Task} {k : Nat} {c : Task} :
    (ts ++ [t])[k]? = some c ↔ ts[k]? = some c ∨ (k = ts.length ∧ c = t) := by
  rw [List.getElem?_append]
  split
  · rename_i h
    constructor
    · exact Or.inl
    · rintro (h1 | ⟨h1, _⟩)
      · exact h1
      · omega
  · rename_i h
    have hn : ts[k]? = none := List.getElem?_eq_none (by omega)
    rw [hn]
    by_cases hk : k = ts.length
    · subst hk
      simp [eq_comm]
    · have : (k - ts.length) ≠ 0 := by omega
      obtain ⟨m, hm⟩ := Nat.exists_eq_succ_of_ne_zero this
      rw [hm]
      simp [hk]

/-- The children of `j` are those of before. -/
theorem child_setPhase {s : IState} {m : Nat} {t : Task} (ht : s.tasks[m]? = some t) (p : Phase) {k : Nat} {c : Task}
    (h : (setPhase s m t p).tasks[k]? = some c) : ∃ c', s.tasks[k]? = some c' ∧ c'.parent = c.parent ∧ c'.node = c.node := by
  rcases (get_setPhase ht p k c).1 h with ⟨rfl, rfl⟩ | ⟨_, h⟩
  · exact ⟨t, ht, rfl, rfl⟩
  · exact ⟨c, h, rfl, rfl⟩

theorem apart_phase {reach : SourceId → Option Nat} {j i m : Nat} {s : IState} {t : Task} (hi : Apart reach j i s)
    (ht : s.tasks[m]? = some t) (p : Phase) (hb : p ≠ .begun)
    (hl : m = j → (left p).Nodup ∧ (∀ a ∈ left p, reach a ≠ some i) ∧
      (∀ a ∈ left p, ∀ b ∈ left p, reach a = reach b → reach a ≠ none → a = b) ∧
      ∀ a ∈ left p, ∀ (k : Nat) (c : Task), s.tasks[k]? = some c → c.parent = some j → reach a ≠ some c.node) :
    Apart reach j i (setPhase s m t p) := by
  refine ⟨?_, ?_, ?_, ?_, ?_⟩
  · intro t' h' hp k c hk hc
    obtain ⟨c', e1, e2, e3⟩ := child_setPhase ht p hk
    rcases (get_setPhase ht p j t').1 h' with ⟨rfl, rfl⟩ | ⟨_, h⟩
    · exact hb hp
    · exact hi.fresh t' h hp k c' e1 (e2.trans hc)
  · intro hn k c hk hc
    obtain ⟨c', e1, e2, e3⟩ := child_setPhase ht p hk
    refine hi.unborn ?_ k c' e1 (e2.trans hc)
    cases hs : s.tasks[j]? with
    | none => rfl
    | some x =>
      exfalso
      by_cases hjm : j = m
      · have := (get_setPhase ht p j { t with phase := p }).2 (Or.inl ⟨hjm, rfl⟩)
        rw [hn] at this; cases this
      · have := (get_setPhase ht p j x).2 (Or.inr ⟨hjm, hs⟩)
        rw [hn] at this; cases this
  · intro k c hk hc
    obtain ⟨c', e1, e2, e3⟩ := child_setPhase ht p hk
    rw [← e3]
    exact hi.other k c' e1 (e2.trans hc)
  · intro k c k' c' hk hc hk' hc' hne
    obtain ⟨d, e1, e2, e3⟩ := child_setPhase ht p hk
    obtain ⟨d', e1', e2', e3'⟩ := child_setPhase ht p hk'
    rw [← e3, ← e3']
    exact hi.apart k d k' d' e1 (e2.trans hc) e1' (e2'.trans hc') hne
  · intro t' h'
    rcases (get_setPhase ht p j t').1 h' with ⟨e, rfl⟩ | ⟨_, h⟩
    · obtain ⟨g1, g2, g3, g4⟩ := hl e.symm
      refine ⟨g1, g2, g3, fun a ha k c hk hc => ?_⟩
      obtain ⟨d, e1, e2, e3⟩ := child_setPhase ht p hk
      rw [← e3]
      exact g4 a ha k d e1 (e2.trans hc)
    · obtain ⟨g1, g2, g3, g4⟩ := hi.rest t' h
      refine ⟨g1, g2, g3, fun a ha k c hk hc => ?_⟩
      obtain ⟨d, e1, e2, e3⟩ := child_setPhase ht p hk
      rw [← e3]
      exact g4 a ha k d e1 (e2.trans hc)

theorem apart_nodes {reach : SourceId → Option Nat} {j i : Nat} {s : IState} (hi : Apart reach j i s) (nodes : List Node) :
    Apart reach j i { s with nodes := nodes } := ⟨hi.fresh, hi.unborn, hi.other, hi.apart, hi.rest⟩

/-- A new task that is not a child of `j`. -/
theorem apart_append {reach : SourceId → Option Nat} {j i : Nat} {s : IState} (hi : Apart reach j i s) (t : Task)
    (hp : t.parent ≠ some j) (hb : t.phase = .begun) : Apart reach j i { s with tasks := s.tasks ++ [t] } := by
  have hc : ∀ (k : Nat) (c : Task), (s.tasks ++ [t])[k]? = some c → c.parent = some j → s.tasks[k]? = some c := by
    intro k c hk hc
    rcases get_append.1 hk with h | ⟨_, rfl⟩
    · exact h
    · exact absurd hc hp
  refine ⟨?_, ?_, ?_, ?_, ?_⟩
  · intro t' h' hp' k c hk hcp
    have hk' := hc k c hk hcp
    rcases get_append.1 h' with h | ⟨e, rfl⟩
    · exact hi.fresh t' h hp' k c hk' hcp
    · exact hi.unborn (List.getElem?_eq_none (by omega)) k c hk' hcp
  · intro hn k c hk hcp
    refine hi.unborn ?_ k c (hc k c hk hcp) hcp
    cases hs : s.tasks[j]? with
    | none => rfl
    | some x => exact absurd (hn.symm.trans (get_append.2 (Or.inl hs))) (by simp)
  · intro k c hk hcp
    exact hi.other k c (hc k c hk hcp) hcp
  · intro k c k' c' hk h1 hk' h2 hne
    exact hi.apart k c k' c' (hc k c hk h1) h1 (hc k' c' hk' h2) h2 hne
  · intro t' h'
    rcases get_append.1 h' with h | ⟨e, rfl⟩
    · obtain ⟨g1, g2, g3, g4⟩ := hi.rest t' h
      exact ⟨g1, g2, g3, fun a ha k c hk hcp => g4 a ha k c (hc k c hk hcp) hcp⟩
    · rw [hb]
      refine ⟨List.nodup_nil, ?_, ?_, ?_⟩ <;> intro a ha <;> cases ha

/-- A new child of `j`. -/
theorem apart_child {reach : SourceId → Option Nat} {j i : Nat} {s : IState} (hi : Apart reach j i s) (t tj : Task)
    (hj : s.tasks[j]? = some tj) (hb : tj.phase ≠ .begun) (hn : t.node ≠ i)
    (hd : ∀ (k : Nat) (c : Task), s.tasks[k]? = some c → c.parent = some j → c.node ≠ t.node)
    (hr : ∀ a ∈ left tj.phase, reach a ≠ some t.node) : Apart reach j i { s with tasks := s.tasks ++ [t] } := by
  have hlt : j < s.tasks.length := (List.getElem?_eq_some_iff.mp hj).1
  have hold : ∀ x, (s.tasks ++ [t])[j]? = some x → x = tj := by
    intro x hx
    rcases get_append.1 hx with h | ⟨e, _⟩
    · rw [hj] at h; cases h; rfl
    · omega
  refine ⟨?_, ?_, ?_, ?_, ?_⟩
  · intro t' h' hp' k c hk hcp
    rw [hold t' h'] at hp'
    exact hb hp'
  · intro hn k c hk hcp
    exact absurd (hn.symm.trans (get_append.2 (Or.inl hj))) (by simp)
  · intro k c hk hcp
    rcases get_append.1 hk with h | ⟨_, rfl⟩
    · exact hi.other k c h hcp
    · exact hn
  · intro k c k' c' hk h1 hk' h2 hne
    rcases get_append.1 hk with h | ⟨e, rfl⟩
    · rcases get_append.1 hk' with h' | ⟨e', rfl⟩
      · exact hi.apart k c k' c' h h1 h' h2 hne
      · exact hd k c h h1
    · rcases get_append.1 hk' with h' | ⟨e', rfl⟩
      · exact fun e => hd k' c' h' h2 e.symm
      · omega
  · intro t' h'
    rw [hold t' h']
    obtain ⟨g1, g2, g3, g4⟩ := hi.rest tj hj
    refine ⟨g1, g2, g3, fun a ha k c hk hcp => ?_⟩
    rcases get_append.1 hk with h | ⟨_, rfl⟩
    · exact g4 a ha k c h hcp
    · exact hr a ha

theorem left_after {repl : UInt32} {ok : Bool} {order : List SourceId} {limit : Int} {counter : UInt32} :
    (left (afterCall repl ok order limit counter) = order ∨ left (afterCall repl ok order limit counter) = []) ∧
      afterCall repl ok order limit counter ≠ .begun := by
  unfold afterCall
  simp only
  generalize (if ok = true then counter + 1 else counter) = c
  split
  · exact ⟨Or.inr rfl, by simp⟩
  · exact ⟨Or.inl rfl, by simp⟩

theorem rest_sub {reach : SourceId → Option Nat} {j i : Nat} {s : IState} {t : Task} (hi : Apart reach j i s) (ht : s.tasks[j]? = some t)
    {l : List SourceId} (hl : l.Sublist (left t.phase)) : l.Nodup ∧ (∀ a ∈ l, reach a ≠ some i) ∧
      (∀ a ∈ l, ∀ b ∈ l, reach a = reach b → reach a ≠ none → a = b) ∧
      ∀ a ∈ l, ∀ (k : Nat) (c : Task), s.tasks[k]? = some c → c.parent = some j → reach a ≠ some c.node := by
  obtain ⟨g1, g2, g3, g4⟩ := hi.rest t ht
  exact ⟨g1.sublist hl, fun a ha => g2 a (hl.subset ha), fun a ha b hb => g3 a (hl.subset ha) b (hl.subset hb),
    fun a ha => g4 a (hl.subset ha)⟩

theorem rest_nil {reach : SourceId → Option Nat} {j i : Nat} {s : IState} : ([] : List SourceId).Nodup ∧ (∀ a ∈ ([] : List SourceId), reach a ≠ some i) ∧
      (∀ a ∈ ([] : List SourceId), ∀ b ∈ ([] : List SourceId), reach a = reach b → reach a ≠ none → a = b) ∧
      ∀ a ∈ ([] : List SourceId), ∀ (k : Nat) (c : Task), s.tasks[k]? = some c → c.parent = some j → reach a ≠ some c.node := by
  refine ⟨List.nodup_nil, ?_, ?_, ?_⟩ <;> intro a ha <;> cases ha

theorem apart_step {X : DS.XEnv} {reach : SourceId → Option Nat} {j i : Nat} {s s' : IState} {l : ILabel} (hi : Apart reach j i s)
    (hs : ∀ now order, l = .serve j now order → order.Nodup ∧ (∀ a ∈ order, reach a ≠ some i) ∧
      ∀ a ∈ order, ∀ b ∈ order, reach a = reach b → reach a ≠ none → a = b)
    (hc : ∀ d t a order limit counter, l = .send j (some d) → s.tasks[j]? = some t → t.phase = .sending (a :: order) limit counter →
      reach a = some d)
    (h : istep X s l = some s') : Apart reach j i s' := by
  cases l with
  | client k name' datum config =>
    simp only [istep, Option.some.injEq] at h
    subst h
    exact apart_append hi _ (by simp) rfl
  | other k n =>
    simp only [istep, Option.some.injEq] at h
    subst h
    exact apart_nodes hi _
  | serve m now order =>
    simp only [istep] at h
    split at h
    · rename_i t ht
      split at h
      · rename_i n hph hn
        split at h
        · cases h
          exact apart_phase hi ht _ (by simp) (fun _ => rest_nil)
        · split at h
          · rename_i mm dt hg
            split at h
            · rename_i dt' err loop hl
              split at h
              · rename_i x hx
                cases h
                refine apart_phase (s := { s with nodes := s.nodes.set t.node { n with dataset := AMap.set mm t.name { x with data := dt' } } })
                  (apart_nodes hi _) ht (if loop = true then .sending order 5 1 else .over err) (by cases loop <;> simp) ?_
                rintro rfl
                cases loop with
                | false => exact rest_nil
                | true =>
                  obtain ⟨g1, g2, g3⟩ := hs now order rfl
                  exact ⟨g1, g2, g3, fun a _ k c hk hcp => absurd hcp (hi.fresh t ht hph k c hk)⟩
              · cases h
            · cases h
          · cases h
            exact apart_phase hi ht _ (by simp) (fun _ => rest_nil)
          · cases h
      · cases h
    · cases h
  | back m =>
    simp only [istep] at h
    split at h
    · rename_i t ht
      split at h
      · rename_i k order limit counter hph
        have hl : ∀ ok, m = j → (left (afterCall (replication s t) ok order limit counter)).Sublist (left t.phase) := by
          intro ok _
          rw [hph]
          rcases (left_after (repl := replication s t) (ok := ok) (order := order) (limit := limit) (counter := counter)).1 with e | e
          · rw [e]; exact List.Sublist.refl _
          · rw [e]; exact List.nil_sublist _
        split at h
        · split at h
          · cases h
            exact apart_phase hi ht _ left_after.2 (fun e => by subst e; exact rest_sub hi ht (hl _ rfl))
          · cases h
            exact apart_phase hi ht _ left_after.2 (fun e => by subst e; exact rest_sub hi ht (hl _ rfl))
        · cases h
      · cases h
    · cases h
  | send m dst =>
    simp only [istep] at h
    split at h
    · rename_i t ht
      split at h
      · cases h
        exact apart_phase hi ht _ (by simp) (fun _ => rest_nil)
      · rename_i a order limit counter hph
        have hsub : order.Sublist (left t.phase) := by rw [hph]; exact List.sublist_cons_self _ _
        split at h
        · cases h
          exact apart_phase hi ht _ (by simp) (fun _ => rest_nil)
        · split at h
          · rename_i d
            cases h
            have h1 : Apart reach j i (setPhase s m t (.waiting s.tasks.length order (limit - 1) counter)) :=
              apart_phase hi ht _ (by simp) (fun e => by subst e; exact rest_sub hi ht hsub)
            by_cases hm : m = j
            · subst hm
              have hr := hc d t a order limit counter rfl ht hph
              obtain ⟨g1, g2, g3, g4⟩ := hi.rest t ht
              rw [hph] at g1 g2 g3 g4
              have ha : a ∈ left (.sending (a :: order) limit counter) := List.mem_cons_self ..
              refine apart_child h1 _ { t with phase := .waiting s.tasks.length order (limit - 1) counter }
                ((get_setPhase ht _ _ _).2 (Or.inl ⟨rfl, rfl⟩)) (by simp) ?_ ?_ ?_
              · intro e
                exact g2 a ha (by rw [hr]; exact congrArg some e)
              · intro k c hk hcp e
                obtain ⟨c', e1, e2, e3⟩ := child_setPhase ht _ hk
                exact g4 a ha k c' e1 (e2.trans hcp) (by rw [hr, e3, e])
              · intro b hb e
                have hb' : b ∈ order := hb
                have := g3 a ha b (List.mem_cons_of_mem _ hb') (by rw [hr, e]) (by rw [hr]; simp)
                subst this
                exact (List.nodup_cons.1 g1).1 hb'
            · exact apart_append h1 _ (by simp [hm]) rfl
          · cases h
            refine apart_phase hi ht _ left_after.2 (fun e => by
              subst e
              refine rest_sub hi ht ?_
              rcases (left_after (repl := replication s t) (ok := false) (order := order) (limit := limit - 1) (counter := counter)).1 with e | e
              · rw [e]; exact hsub
              · rw [e]; exact List.nil_sublist _)
      · cases h
    · cases h

theorem apart_exec {X : DS.XEnv} {reach : SourceId → Option Nat} {j i : Nat} {nodes : List Node} : ∀ (ls : List ILabel) (s : IState),
    iexec X ⟨nodes, []⟩ ls = some s → SourcesApart reach ls j i → CallsReach reach X ⟨nodes, []⟩ ls j → Apart reach j i s := by
  intro ls
  induction ls using List.reverseRecOn with
  | nil =>
    intro s h _ _
    cases h
    exact ⟨fun _ h => by simp at h, fun _ _ _ h => by simp at h, fun _ _ h => by simp at h, fun _ _ _ _ h => by simp at h,
      fun _ h => by simp at h⟩
  | append_singleton ls l ih =>
    intro s h hs hc
    rw [iexec_append] at h
    cases h1 : iexec X ⟨nodes, []⟩ ls with
    | none => rw [h1] at h; cases h
    | some s1 =>
      rw [h1] at h
      simp only [Option.bind_some, iexec] at h
      cases h2 : istep X s1 l with
      | none => rw [h2] at h; cases h
      | some s2 =>
        rw [h2] at h
        cases h
        have hpre : ls <+: ls ++ [l] := List.prefix_append ls [l]
        have hi := ih s1 h1 (fun now order hm => hs now order (List.mem_append_left _ hm))
          (fun ls1 d s0 t a order limit counter hp => hc ls1 d s0 t a order limit counter (hp.trans hpre))
        refine apart_step hi (fun now order e => hs now order (by simp [e])) ?_ h2
        intro d t a order limit counter e ht hph
        exact hc ls d s1 t a order limit counter (by rw [e]; exact List.prefix_rfl) h1 ht hph

end Clu
open Clu

/-- C99: an acknowledged insert has been stored on as many nodes as asked for if each call reaches the node of the source called, or
none, and the sources are different nodes, none of them the node itself. -/
theorem C99_sources_partial (X : DS.XEnv) (nodes : List Node) (ls : List ILabel) (s : IState) (j : Nat) (t : Task) (r : UInt32)
    (h : iexec X ⟨nodes, []⟩ ls = some s) (ht : s.tasks[j]? = some t) (hp : t.phase = .over none) (hc : t.config.count = 0)
    (ha : AlwaysAsks X ⟨nodes, []⟩ ls t.node t.name r) (reach : SourceId → Option Nat) (hreach : CallsReach reach X ⟨nodes, []⟩ ls j)
    (hsrc : SourcesApart reach ls j t.node) :
    ∃ l : List Nat, l.Nodup ∧ r.toNat ≤ l.length ∧ ∀ i ∈ l, Held X ⟨nodes, []⟩ ls i t.name t.datum := by
  have hi := apart_exec ls s h hsrc hreach
  exact C99_replicas_partial X nodes ls s j t r h ht hp hc ha
    (fun k c hk hcp => ⟨hi.other k c hk hcp, fun k' c' hk' hcp' hne => hi.apart k c k' c' hk hcp hk' hcp' hne⟩)

/-- C99 in a cluster whose nodes have found each other (C164, C165): an acknowledged insert has been stored on as many nodes as asked
for, if it was passed on to sources that the node got from synchronisations, and the nodes have fixed addresses. -/
theorem C99_cluster_partial {ι : Type} [DecidableEq ι] (X : DS.XEnv) (W : Gossip.World ι) (σ σ' : ι → Node) (t0 t1 : Int)
    (hstart : ∀ i, Gossip.Starts W i (σ i)) (hfix : Gossip.FixedAddresses W σ) (w : List (Gossip.Ev ι)) (ho : ∀ e ∈ w, e.orders.Ok)
    (hadd : Gossip.Adding X W w (t0, σ)) (he : Gossip.exec X W w (t0, σ) = .ok (t1, σ'))
    (place : ι → Nat) (hplace : ∀ a b, place a = place b → a = b)
    (nodes : List Node) (ls : List ILabel) (s : IState) (j : Nat) (t : Task) (r : UInt32)
    (h : iexec X ⟨nodes, []⟩ ls = some s) (ht : s.tasks[j]? = some t) (hp : t.phase = .over none) (hc : t.config.count = 0)
    (ha : AlwaysAsks X ⟨nodes, []⟩ ls t.node t.name r) (hreach : CallsReach (fun a => (W.dial a).map place) X ⟨nodes, []⟩ ls j)
    (i : ι) (hi : t.node = place i)
    (hsrc : ∀ now order, ILabel.serve j now order ∈ ls → order.Nodup ∧ ∀ a ∈ order, Gossip.SourceIn (σ' i).dataset t.name a) :
    ∃ l : List Nat, l.Nodup ∧ r.toNat ≤ l.length ∧ ∀ i ∈ l, Held X ⟨nodes, []⟩ ls i t.name t.datum := by
  have hseen : Gossip.Seen W fun i => (σ i).port := fun i k => (hfix i k).imp_right fun h => (hstart i).own _ h
  have h164 := C164_others X W σ t0 hstart hseen w ho hadd t1 σ' he i t.name
  refine C99_sources_partial X nodes ls s j t r h ht hp hc ha _ hreach ?_
  intro now order hm
  obtain ⟨h1, h2⟩ := hsrc now order hm
  refine ⟨h1, ?_, ?_⟩
  · intro a hao e
    obtain ⟨k, hk, hd⟩ := h164 a (h2 a hao)
    simp only [hd, hi, Option.map_some, Option.some.injEq] at e
    exact hk (hplace _ _ e)
  · intro a hao b hbo e _
    obtain ⟨k, -, hd⟩ := h164 a (h2 a hao)
    obtain ⟨k', -, hd'⟩ := h164 b (h2 b hbo)
    simp only [hd, hd', Option.map_some, Option.some.injEq] at e
    exact C165_once_partial X W σ t0 hstart hfix w ho hadd t1 σ' he i t.name a b (h2 a hao) (h2 b hbo) (by rw [hd, hd', hplace _ _ e])

namespace Clu

/-- A check of `CallsReach` by evaluation. -/
def reaches? (reach : SourceId → Option Nat) (j : Nat) (l : ILabel) (s : IState) : Bool :=
  match l with
  | .send k (some i) => k != j || ((s.tasks[j]?).all fun t => match t.phase with | .sending (a :: _) _ _ => decide (reach a = some i) | _ => true)
  | _ => true

theorem callsReach_of {reach : SourceId → Option Nat} {X : DS.XEnv} {s0 : IState} {ls : List ILabel} {j : Nat}
    (h : ((List.range ls.length).all fun k => (ls[k]?).all fun l => (iexec X s0 (ls.take k)).all (reaches? reach j l)) = true) :
    CallsReach reach X s0 ls j := by
  intro ls1 i s1 t a order limit counter hp h1 ht hph
  have hlt : ls1.length < ls.length := by have := hp.length_le; simp at this; omega
  rw [List.all_eq_true] at h
  have := h ls1.length (List.mem_range.mpr hlt)
  have htake : ls.take ls1.length = ls1 := by
    have h2 : ls1 <+: ls := (List.prefix_append _ _).trans hp
    exact (List.prefix_iff_eq_take.mp h2).symm
  have hget : ls[ls1.length]? = some (.send j (some i)) := by
    obtain ⟨r, rfl⟩ := hp
    simp
  rw [hget, htake, h1] at this
  simpa [reaches?, ht, hph] using this

/-- A data set that asks for two nodes. -/
def exTwoM : Node := newNode 1 [] [] [("x", ⟨Data.newData { DS.defaultConfig "x" with replicationOnInsert := 2, enforceReplicationOnInsert := true }, none⟩)]

/-- An insert into it that is passed on to the other node. -/
def exTwo : List ILabel := [.client 0 "x" exD ⟨0, 0⟩, .serve 0 0 ["b:1"], .send 0 (some 1), .serve 1 0 ["a:1"], .back 0]

end Clu

/-- The two nodes of C165: the first has found the second by itself, and an insert is stored on both. -/
theorem C99_cluster_example : ∃ l : List Nat, l.Nodup ∧ 2 ≤ l.length ∧
    ∀ i ∈ l, Held (DS.toy 0) ⟨[exTwoM, exTwoM], []⟩ exTwo i "x" exD := by
  obtain ⟨t', σ', h1, h2⟩ := Gossip.twoSources_some (W := Gossip.twoQuiet) (l := ["b:1"]) (by decide +kernel)
  have hx : (iexec (DS.toy 0) ⟨[exTwoM, exTwoM], []⟩ exTwo).any (fun (s : IState) => (s.tasks[0]?).any fun (t : Task) =>
      decide (t.node = 0 ∧ t.name = "x" ∧ t.datum = exD ∧ t.config.count = 0) && (match t.phase with | .over none => true | _ => false)) = true := by
    decide +kernel
  obtain ⟨s, hs, hx⟩ := DS.any_some hx
  obtain ⟨t, ht, hx⟩ := DS.any_some hx
  simp only [Bool.and_eq_true, decide_eq_true_eq] at hx
  obtain ⟨⟨e1, e2, e4, e3⟩, h4⟩ := hx
  have hp : t.phase = .over none := by
    revert h4
    split
    · rename_i hp; intro _; exact hp
    · intro h; cases h
  have := C99_cluster_partial (DS.toy 0) Gossip.twoQuiet Gossip.twoNode σ' 0 t'
    (fun i => ⟨(Gossip.twoNode_starts i).own, (Gossip.twoNode_starts i).alone, (Gossip.twoNode_starts i).nobody⟩)
    (fun _ _ => .inl rfl) Gossip.twoEvents Gossip.twoEvents_ok (Gossip.adding_of _ _ Gossip.twoEvents_kinds) h1
    Fin.val (fun a b h => Fin.ext h) [exTwoM, exTwoM] exTwo s 0 t 2 hs ht hp e3
    (by rw [e1, e2]; exact alwaysAsks_of (by decide +kernel)) (callsReach_of (by decide +kernel)) 0 e1
    (by
      intro now order hm
      simp only [exTwo, List.mem_cons, List.not_mem_nil, or_false, ILabel.serve.injEq, reduceCtorEq, false_or] at hm
      rcases hm with ⟨-, -, rfl⟩ | ⟨h, -⟩
      · rw [e2]
        exact ⟨by decide, fun a ha => h2 a ha⟩
      · cases h)
  rw [e2, e4] at this
  exact this

end Veri
