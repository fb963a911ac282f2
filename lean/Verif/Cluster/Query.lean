import Verif.Cluster.Model
/-
C37: queries do not circulate.
-/
set_option autoImplicit false
namespace Veri
namespace Clu
open Net

/-- The node remembers the id of the query at least until five minutes after this execution. -/
def Remembers (s : QState) (e : Exec) : Prop :=
  e.time + 5 * minute < s.now ∨ ∃ n x, s.nodes[e.node]? = some n ∧ n.queries.get? e.uuid = some (some x) ∧ e.time + 5 * minute ≤ x

structure QInv (s : QState) : Prop where
  past : ∀ e ∈ s.execs, e.time ≤ s.now ∧ e.node < s.nodes.length
  remembers : ∀ e ∈ s.execs, e.entry = false → Remembers s e
  apart : s.execs.Pairwise fun e e' => e.entry = false → e'.entry = false → e.node = e'.node → e.uuid = e'.uuid →
    e.time + 5 * minute < e'.time
  used : ∀ e ∈ s.execs, e.uuid ∈ s.used
  entries : s.execs.Pairwise fun e e' => e.entry = true → e'.entry = true → e.uuid ≠ e'.uuid
  fan : ∀ e ∈ s.execs, e.sent ≤ 6 * e.data ∧ (e.client = false → e.data = 1)
  msgs : ∀ m ∈ s.msgs, m.client = false → m.data = 1 ∧ m.config.uuid ≠ ""
  ids : ∀ e ∈ s.execs, e.uuid ≠ "" ∧ (e.entry = true → e.client = true)

theorem queryEntry_some {now : Int} {fresh uid u : String} {n n' : Node} (h : queryEntry now fresh n uid = some (n', u)) :
    (uid = "" ∧ n' = n ∧ u = fresh) ∨
    (uid ≠ "" ∧ u = uid ∧ n' = { n with queries := n.queries.set uid (some (now + 5 * minute)) } ∧
      ∀ x, n.queries.get? uid = some (some x) → x < now) := by
  unfold queryEntry at h
  split at h
  · rename_i h0
    cases h
    exact Or.inl ⟨h0, rfl, rfl⟩
  · rename_i h0
    right
    split at h
    · rename_i e hg
      split at h
      · cases h
      · rename_i ha
        cases h
        refine ⟨h0, rfl, rfl, ?_⟩
        intro x hx
        rw [hx] at hg
        cases hg
        simpa [alive] using ha
    · rename_i hg
      cases h
      exact ⟨h0, rfl, rfl, fun x hx => by rw [hx] at hg; cases hg⟩

theorem searchEntry_some {now : Int} {fresh : String} {n n' : Node} {c c' : SearchConfig} {dt : Data}
    (h : searchEntry now fresh n (some c) = .ok (n', some (dt, c'))) :
    ∃ u, queryEntry now fresh n c.uuid = some (n', u) ∧ c' = { c with uuid := u } ∧ DS.getNoCreate now n.dataset c.dataName = .ok dt := by
  simp only [searchEntry] at h
  split at h
  · cases h
  · rename_i n1 u hq
    split at h
    · rename_i dt1 hg
      cases h
      refine ⟨u, hq, rfl, ?_⟩
      rcases queryEntry_some hq with ⟨-, rfl, -⟩ | ⟨-, -, rfl, -⟩
      · exact hg
      · exact hg
    · cases h
    · cases h

/-- What a node remembers is not lost when its table changes for another reason. -/
theorem remembers_set {s : QState} {e : Exec} {i : Nat} {n n' : Node} (hi : s.nodes[i]? = some n) (hr : Remembers s e)
    (h : ∀ u x, e.node = i → u = e.uuid → n.queries.get? u = some (some x) → e.time + 5 * minute ≤ x → ¬ e.time + 5 * minute < s.now →
      ∃ y, n'.queries.get? u = some (some y) ∧ x ≤ y)
    (msgs : List QMsg) (execs : List Exec) (used : List String) :
    Remembers ⟨s.now, s.nodes.set i n', msgs, execs, used⟩ e := by
  by_cases hlt : e.time + 5 * minute < s.now
  · exact Or.inl hlt
  rcases hr with hr | ⟨m, x, hm, hx, hle⟩
  · exact Or.inl hr
  · right
    by_cases he : e.node = i
    · subst he
      rw [hi] at hm
      cases hm
      obtain ⟨y, hy, hxy⟩ := h _ x rfl rfl hx hle hlt
      refine ⟨n', y, ?_, hy, Int.le_trans hle hxy⟩
      simp only
      rw [List.getElem?_set_self (List.getElem?_eq_some_iff.mp hi).1]
    · refine ⟨m, x, ?_, hx, hle⟩
      simp only
      rw [List.getElem?_set_ne (fun h => he h.symm)]
      exact hm

/-- After `Add` the node remembers what it remembered. -/
theorem entry_keeps {now : Int} {fresh uid u : String} {n n' : Node} (h : queryEntry now fresh n uid = some (n', u)) (v : String) (x : Int)
    (hx : n.queries.get? v = some (some x)) : ∃ y, n'.queries.get? v = some (some y) ∧ x ≤ y := by
  rcases queryEntry_some h with ⟨-, rfl, -⟩ | ⟨-, -, rfl, hold⟩
  · exact ⟨x, hx, Int.le_refl _⟩
  · by_cases hv : uid = v
    · subst hv
      refine ⟨now + 5 * minute, by simp [AMap.get?_set_self], ?_⟩
      have := hold x hx
      simp only [minute]
      omega
    · exact ⟨x, by simpa only [AMap.get?_set_ne _ _ hv] using hx, Int.le_refl _⟩

theorem qinv_step {s s' : QState} {l : QLabel} (hi : QInv s) (h : qstep s l = some s') : QInv s' ∧ s'.nodes.length = s.nodes.length := by
  cases l with
  | tick now =>
    simp only [qstep] at h
    split at h
    · rename_i hle
      cases h
      refine ⟨⟨?_, ?_, hi.apart, hi.used, hi.entries, hi.fan, hi.msgs, hi.ids⟩, rfl⟩
      · intro e he
        have := hi.past e he
        exact ⟨Int.le_trans this.1 hle, this.2⟩
      · intro e he hn
        rcases hi.remembers e he hn with h1 | h1
        · exact Or.inl (Int.lt_of_lt_of_le h1 hle)
        · exact Or.inr h1
    · cases h
  | client m =>
    simp only [qstep, Option.some.injEq] at h
    subst h
    refine ⟨⟨hi.past, hi.remembers, hi.apart, fun e he => List.mem_cons_of_mem _ (hi.used e he), hi.entries, hi.fan, ?_, hi.ids⟩, rfl⟩
    intro m' hm'
    rcases List.mem_append.mp hm' with hm' | hm'
    · exact hi.msgs m' hm'
    · rw [List.mem_singleton.mp hm']; simp
  | handle k fresh dsts =>
    simp only [qstep] at h
    split at h
    · rename_i m hk
      split at h
      · rename_i n hn
        split at h
        · cases h
        · rename_i hcond
          have hlt := (List.getElem?_eq_some_iff.mp hn).1
          have hmem : m ∈ s.msgs := List.mem_of_getElem? hk
          split at h
          · rename_i n' dt c hs
            cases h
            obtain ⟨u, hq, rfl, -⟩ := searchEntry_some hs
            have hkeep : ∀ e ∈ s.execs, e.entry = false → Remembers ⟨s.now, s.nodes.set m.dst n',
                s.msgs.eraseIdx k ++ dsts.map fun d => ⟨d, { m.config with uuid := u }, 1, false⟩,
                s.execs ++ [⟨s.now, m.dst, u, decide (m.config.uuid = ""), dsts.length, m.data, m.client⟩], u :: s.used⟩ e := by
              intro e he hen
              exact remembers_set hn (hi.remembers e he hen) (fun v x _ _ hx _ _ => entry_keeps hq v x hx) _ _ _
            have hu : u ≠ "" := by
              rcases queryEntry_some hq with ⟨-, -, rfl⟩ | ⟨h0, rfl, -⟩
              · exact fun h => hcond (Or.inl h)
              · exact h0
            refine ⟨⟨?_, ?_, ?_, ?_, ?_, ?_, ?_, ?_⟩, by simp⟩
            · intro e he
              rcases List.mem_append.mp he with he | he
              · have := hi.past e he
                exact ⟨this.1, by simpa using this.2⟩
              · rw [List.mem_singleton.mp he]
                exact ⟨Int.le_refl _, by simpa using hlt⟩
            · intro e he hen
              rcases List.mem_append.mp he with he | he
              · exact hkeep e he hen
              · rw [List.mem_singleton.mp he] at hen ⊢
                right
                rcases queryEntry_some hq with ⟨h0, -, -⟩ | ⟨-, rfl, rfl, -⟩
                · simp [h0] at hen
                · exact ⟨{ n with queries := n.queries.set m.config.uuid (some (s.now + 5 * minute)) }, s.now + 5 * minute,
                    List.getElem?_set_self hlt, AMap.get?_set_self _ _ _, Int.le_refl _⟩
            · rw [List.pairwise_append]
              refine ⟨hi.apart, List.pairwise_singleton _ _, ?_⟩
              intro e he e' he' h1 h2 h3 h4
              rw [List.mem_singleton.mp he'] at h2 h3 h4 ⊢
              simp only at h2 h3 h4 ⊢
              rcases queryEntry_some hq with ⟨h0, -, -⟩ | ⟨-, rfl, -, hold⟩
              · simp [h0] at h2
              · rcases hi.remembers e he h1 with hr | ⟨n2, x, hn2, hx, hle⟩
                · exact hr
                · rw [h3, hn] at hn2
                  cases hn2
                  rw [h4] at hx
                  have := hold x hx
                  omega
            · intro e he
              rcases List.mem_append.mp he with he | he
              · exact List.mem_cons_of_mem _ (hi.used e he)
              · rw [List.mem_singleton.mp he]; exact List.mem_cons_self
            · rw [List.pairwise_append]
              refine ⟨hi.entries, List.pairwise_singleton _ _, ?_⟩
              intro e he e' he' h1 h2 h3
              rw [List.mem_singleton.mp he'] at h2 h3
              simp only [decide_eq_true_eq] at h2 h3
              rcases queryEntry_some hq with ⟨-, -, rfl⟩ | ⟨h0, -⟩
              · exact hcond (Or.inr (Or.inl (h3 ▸ hi.used e he)))
              · exact h0 h2
            · intro e he
              rcases List.mem_append.mp he with he | he
              · exact hi.fan e he
              · rw [List.mem_singleton.mp he]
                refine ⟨?_, fun hc => (hi.msgs m hmem hc).1⟩
                simp only
                have : ¬ dsts.length > 6 * m.data := fun h => hcond (Or.inr (Or.inr h))
                omega
            · intro m' hm'
              rcases List.mem_append.mp hm' with hm' | hm'
              · exact hi.msgs m' (List.mem_of_mem_eraseIdx hm')
              · obtain ⟨d, -, rfl⟩ := List.mem_map.mp hm'
                exact fun _ => ⟨rfl, hu⟩
            · intro e he
              rcases List.mem_append.mp he with he | he
              · exact hi.ids e he
              · rw [List.mem_singleton.mp he]
                refine ⟨hu, ?_⟩
                intro h0
                simp only [decide_eq_true_eq] at h0
                cases hc : m.client with
                | true => rfl
                | false => exact absurd h0 (hi.msgs m hmem hc).2
          · rename_i n' hs
            cases h
            have hnn : n' = n := by
              simp only [searchEntry] at hs
              split at hs
              · cases hs; rfl
              · split at hs <;> cases hs
            subst hnn
            refine ⟨⟨?_, ?_, hi.apart, hi.used, hi.entries, hi.fan, fun m' hm' => hi.msgs m' (List.mem_of_mem_eraseIdx hm'), hi.ids⟩, by simp⟩
            · intro e he
              have := hi.past e he
              exact ⟨this.1, by simpa using this.2⟩
            · intro e he hen
              exact remembers_set hn (hi.remembers e he hen) (fun v x _ _ hx _ _ => ⟨x, hx, Int.le_refl _⟩) _ _ _
          · cases h
            refine ⟨⟨?_, ?_, hi.apart, hi.used, hi.entries, hi.fan, fun m' hm' => hi.msgs m' (List.mem_of_mem_eraseIdx hm'), hi.ids⟩, by simp⟩
            · intro e he
              have := hi.past e he
              exact ⟨this.1, by simpa using this.2⟩
            · intro e he hen
              refine remembers_set hn (hi.remembers e he hen) ?_ _ _ _
              intro v x _ _ hx _ _
              cases hq : queryEntry s.now fresh n m.config.uuid with
              | none => exact ⟨x, hx, Int.le_refl _⟩
              | some r =>
                obtain ⟨n', u⟩ := r
                exact entry_keeps hq v x hx
          · cases h
      · cases h
    · cases h
  | lose k =>
    simp only [qstep, Option.some.injEq] at h
    subst h
    exact ⟨⟨hi.past, hi.remembers, hi.apart, hi.used, hi.entries, hi.fan, fun m' hm' => hi.msgs m' (List.mem_of_mem_eraseIdx hm'), hi.ids⟩, rfl⟩
  | janitor i uid =>
    simp only [qstep] at h
    split at h
    · rename_i n hn
      split at h
      · rename_i x0 hx0
        split at h
        · cases h
        · rename_i ha
          cases h
          refine ⟨⟨?_, ?_, hi.apart, hi.used, hi.entries, hi.fan, hi.msgs, hi.ids⟩, by simp⟩
          · intro e he
            have := hi.past e he
            exact ⟨this.1, by simpa using this.2⟩
          · intro e he hen
            refine remembers_set hn (hi.remembers e he hen) ?_ _ _ _
            intro v x _ _ hx hle hnow
            refine ⟨x, ?_, Int.le_refl _⟩
            simp only [AMap.get?_erase]
            split
            · rename_i hv
              subst hv
              rw [hx] at hx0
              cases hx0
              simp only [alive, decide_eq_true_eq] at ha
              omega
            · exact hx
      · cases h
    · cases h
  | other i n =>
    simp only [qstep] at h
    split at h
    · rename_i n0 hn
      split at h
      · rename_i hq
        cases h
        refine ⟨⟨?_, ?_, hi.apart, hi.used, hi.entries, hi.fan, hi.msgs, hi.ids⟩, by simp⟩
        · intro e he
          have := hi.past e he
          exact ⟨this.1, by simpa using this.2⟩
        · intro e he hen
          exact remembers_set hn (hi.remembers e he hen) (fun v x _ _ hx _ _ => ⟨x, by rw [hq]; exact hx, Int.le_refl _⟩) _ _ _
      · cases h
    · cases h

theorem qinv_exec : ∀ (ls : List QLabel) {s s' : QState}, QInv s → qexec s ls = some s' → QInv s' ∧ s'.nodes.length = s.nodes.length
  | [], _, _, hi, h => by cases h; exact ⟨hi, rfl⟩
  | l :: ls, s, s', hi, h => by
    rw [qexec] at h
    cases hs : qstep s l with
    | none => rw [hs] at h; cases h
    | some s1 =>
      rw [hs] at h
      obtain ⟨h1, h2⟩ := qinv_step hi hs
      obtain ⟨h3, h4⟩ := qinv_exec ls h1 h
      exact ⟨h3, h4.trans h2⟩

/-- A cluster in which no query has been carried out yet; the nodes may have any state. -/
def qstart (now : Int) (nodes : List Node) : QState := ⟨now, nodes, [], [], []⟩

theorem qinv_start (now : Int) (nodes : List Node) : QInv (qstart now nodes) := by
  constructor <;> simp [qstart]

/-! ### Counting -/

theorem countP_le_one {α : Type} {l : List α} {p : α → Bool} (h : l.Pairwise fun a b => p a = true → p b = true → False) :
    l.countP p ≤ 1 := by
  induction l with
  | nil => simp
  | cons a l ih =>
    rw [List.pairwise_cons] at h
    rw [List.countP_cons]
    have := ih h.2
    by_cases ha : p a = true
    · have : l.countP p = 0 := List.countP_eq_zero.mpr (fun b hb hp => h.1 b hb ha hp)
      rw [this, if_pos ha]
      omega
    · rw [if_neg ha]
      omega

/-- Elements with different numbers below `n` are at most `n`. -/
theorem countP_le_of_inj {α : Type} {p : α → Bool} {f : α → Nat} : ∀ (n : Nat) {l : List α}, (∀ a ∈ l, f a < n) →
    (l.Pairwise fun a b => p a = true → p b = true → f a ≠ f b) → l.countP p ≤ n
  | 0, l, hlt, _ => by
    cases l with
    | nil => simp
    | cons a l => exact absurd (hlt a (by simp)) (by omega)
  | n + 1, l, hlt, hp => by
    have h1 : l.countP p = (l.filter fun a => decide (f a = n)).countP p + (l.filter fun a => !decide (f a = n)).countP p := by
      clear hlt hp
      induction l with
      | nil => rfl
      | cons a l ih =>
        by_cases h : f a = n <;> simp [List.filter_cons, List.countP_cons, h, ih] <;> omega
    have h2 : (l.filter fun a => decide (f a = n)).countP p ≤ 1 := by
      apply countP_le_one
      refine List.Pairwise.imp_of_mem ?_ (hp.filter _)
      intro a b ha hb h ha' hb'
      have e1 := of_decide_eq_true (List.mem_filter.mp ha).2
      have e2 := of_decide_eq_true (List.mem_filter.mp hb).2
      exact h ha' hb' (e1.trans e2.symm)
    have h3 : (l.filter fun a => !decide (f a = n)).countP p ≤ n := by
      apply countP_le_of_inj (f := f) n
      · intro a ha
        obtain ⟨ha1, ha2⟩ := List.mem_filter.mp ha
        have := hlt a ha1
        have : f a ≠ n := by simpa using ha2
        omega
      · exact hp.filter _
    omega

end Clu

open Clu Net

/-- C37: in a cluster of any nodes in any state, for every run and every query id, if the executions of the query are no more
than five minutes apart (the lifetime of the request-id caches): each node carries it out at most once, and once more at most
where it entered; so at most one more than there are nodes. -/
theorem C37_once (now : Int) (nodes : List Node) (ls : List QLabel) (s : QState) (h : qexec (qstart now nodes) ls = some s)
    (u : String) (T : Int) (hw : ∀ e ∈ s.execs, e.uuid = u → T ≤ e.time ∧ e.time ≤ T + 5 * minute) :
    (∀ v, s.execs.countP (fun e => decide (e.uuid = u ∧ e.node = v ∧ e.entry = false)) ≤ 1) ∧
    s.execs.countP (fun e => decide (e.uuid = u ∧ e.entry = true)) ≤ 1 ∧
    s.execs.countP (fun e => decide (e.uuid = u)) ≤ nodes.length + 1 := by
  obtain ⟨hi, hlen⟩ := qinv_exec ls (qinv_start now nodes) h
  have hsep : s.execs.Pairwise fun e e' => e.uuid = u → e'.uuid = u → e.entry = false → e'.entry = false → e.node ≠ e'.node := by
    refine List.Pairwise.imp_of_mem ?_ hi.apart
    intro a b ha hb hp h1 h2 h3 h4 h5
    have := hp h3 h4 h5 (h1.trans h2.symm)
    have ta := hw a ha h1
    have tb := hw b hb h2
    omega
  have hone : s.execs.countP (fun e => decide (e.uuid = u ∧ e.entry = true)) ≤ 1 := by
    apply countP_le_one
    refine hi.entries.imp ?_
    intro a b hp ha hb
    have ha := of_decide_eq_true ha
    have hb := of_decide_eq_true hb
    exact hp ha.2 hb.2 (ha.1.trans hb.1.symm)
  refine ⟨?_, hone, ?_⟩
  · intro v
    apply countP_le_one
    refine hsep.imp ?_
    intro a b hp ha hb
    have ha := of_decide_eq_true ha
    have hb := of_decide_eq_true hb
    exact hp ha.1 hb.1 ha.2.2 hb.2.2 (ha.2.1.trans hb.2.1.symm)
  · have hrest : s.execs.countP (fun e => decide (e.uuid = u ∧ e.entry = false)) ≤ nodes.length := by
      apply countP_le_of_inj (f := Exec.node)
      · intro a ha
        have := (hi.past a ha).2
        rw [hlen] at this
        exact this
      · refine hsep.imp ?_
        intro a b hp ha hb
        have ha := of_decide_eq_true ha
        have hb := of_decide_eq_true hb
        exact hp ha.1 hb.1 ha.2 hb.2
    have : s.execs.countP (fun e => decide (e.uuid = u)) =
        s.execs.countP (fun e => decide (e.uuid = u ∧ e.entry = true)) + s.execs.countP (fun e => decide (e.uuid = u ∧ e.entry = false)) := by
      generalize s.execs = l
      induction l with
      | nil => rfl
      | cons a l ih =>
        simp only [List.countP_cons, ih]
        cases a.entry <;> by_cases hu : a.uuid = u <;> simp [hu] <;> omega
    omega

/-- C37: so the fan-out ends: an execution sends at most six requests for each datum it was asked for, and one that a node asked
for has one datum; the other nodes together send at most six requests for each node of the cluster. -/
theorem C37_fanout (now : Int) (nodes : List Node) (ls : List QLabel) (s : QState) (h : qexec (qstart now nodes) ls = some s)
    (u : String) (T : Int) (hw : ∀ e ∈ s.execs, e.uuid = u → T ≤ e.time ∧ e.time ≤ T + 5 * minute) :
    (∀ e ∈ s.execs, e.sent ≤ 6 * e.data) ∧
    ((s.execs.filter fun e => decide (e.uuid = u ∧ e.client = false)).map (·.sent)).sum ≤ 6 * nodes.length := by
  obtain ⟨hi, hlen⟩ := qinv_exec ls (qinv_start now nodes) h
  refine ⟨fun e he => (hi.fan e he).1, ?_⟩
  have hcount : s.execs.countP (fun e => decide (e.uuid = u ∧ e.client = false)) ≤ nodes.length := by
    apply countP_le_of_inj (f := Exec.node)
    · intro a ha
      have := (hi.past a ha).2
      rw [hlen] at this
      exact this
    · refine List.Pairwise.imp_of_mem ?_ hi.apart
      intro a b ha hb hp h1 h2 h5
      have h1 := of_decide_eq_true h1
      have h2 := of_decide_eq_true h2
      have e1 : a.entry = false := by
        cases hc : a.entry with
        | false => rfl
        | true => rw [(hi.ids a ha).2 hc] at h1; cases h1.2
      have e2 : b.entry = false := by
        cases hc : b.entry with
        | false => rfl
        | true => rw [(hi.ids b hb).2 hc] at h2; cases h2.2
      have := hp e1 e2 h5 (h1.1.trans h2.1.symm)
      have ta := hw a ha h1.1
      have tb := hw b hb h2.1
      omega
  have : ∀ l : List Exec, (∀ e ∈ l, e.sent ≤ 6 * e.data ∧ (e.client = false → e.data = 1)) →
      ((l.filter fun e => decide (e.uuid = u ∧ e.client = false)).map (·.sent)).sum ≤
        6 * l.countP (fun e => decide (e.uuid = u ∧ e.client = false)) := by
    intro l
    induction l with
    | nil => simp
    | cons a l ih =>
      intro hl
      have := ih fun e he => hl e (by simp [he])
      rw [List.filter_cons, List.countP_cons]
      split
      · rename_i hd
        have ha := hl a (by simp)
        have := ha.2 (of_decide_eq_true hd).2
        simp only [List.map_cons, List.sum_cons]
        omega
      · omega
  have := this s.execs hi.fan
  omega

namespace Clu

def exSet : DS.DL := [("a", ⟨Data.newData (DS.defaultConfig "a"), none⟩)]
def exN : Node := newNode 7000 ["me:7000"] [] exSet
def exC (u : String) : SearchConfig := { Search.defaultSearchConfig with dataName := "a", uuid := u }

/-- Three nodes that all know each other: a client asks the first one; the query comes back to it once. -/
def exQ : List QLabel := [.client ⟨0, exC "", 1, true⟩, .handle 0 "q" [1, 2], .handle 0 "f" [0, 2], .handle 0 "f" [0, 1], .handle 0 "f" [1, 2],
  .handle 0 "f" [], .handle 0 "f" []]

/-- A node that has the data set for ever and has forgotten the query `u`, with a request for it on its way. -/
structure Again (u : String) (s : QState) (k : Nat) : Prop where
  one : ∃ n, s.nodes = [n] ∧ n.dataset = exSet ∧ ∀ x, n.queries.get? u = some x → alive s.now x = false
  msg : s.msgs = [⟨0, exC u, 1, false⟩]
  free : "f" ∉ s.used
  count : s.execs.countP (fun e => decide (e.uuid = u)) = k

theorem again_step {u : String} (hu : u ≠ "" ∧ u ≠ "f") {s : QState} {k : Nat} (h : Again u s k) :
    ∃ s', qexec s [.handle 0 "f" [0], .tick (s.now + 6 * minute)] = some s' ∧ Again u s' (k + 1) := by
  obtain ⟨⟨n, hn, hd, hx⟩, hm, hf, hk⟩ := h
  obtain ⟨now, nodes, msgs, execs, used⟩ := s
  simp only at hn hd hx hm hf hk
  subst hn hm
  have hq : queryEntry now "f" n u = some ({ n with queries := n.queries.set u (some (now + 5 * minute)) }, u) := by
    unfold queryEntry
    rw [if_neg hu.1]
    split
    · rename_i e he
      rw [hx e he]
      rfl
    · rfl
  have hs : searchEntry now "f" n (some (exC u)) = .ok ({ n with queries := n.queries.set u (some (now + 5 * minute)) },
      some (Data.newData (DS.defaultConfig "a"), exC u)) := by
    unfold searchEntry
    simp only [exC] at hq ⊢
    rw [hq]
    simp only [hd]
    rfl
  have hcond : ¬ (("f" : String) = "" ∨ "f" ∈ used ∨ [0].length > 6 * 1) := by
    rintro (h | h | h)
    · exact absurd h (by decide)
    · exact hf h
    · simp at h
  have htick : now ≤ now + 6 * minute := by simp only [minute]; omega
  refine ⟨⟨now + 6 * minute, [{ n with queries := n.queries.set u (some (now + 5 * minute)) }], [⟨0, exC u, 1, false⟩],
    execs ++ [⟨now, 0, u, decide ((exC u).uuid = ""), 1, 1, false⟩], u :: used⟩, ?_, ?_⟩
  · simp only [qexec, qstep, List.getElem?_cons_zero, hcond, if_false, hs, Option.bind, htick, if_true]
    rfl
  · refine ⟨⟨_, rfl, hd, ?_⟩, rfl, ?_, ?_⟩
    · intro x hx
      simp only [AMap.get?_set_self, Option.some.injEq] at hx
      subst hx
      have : ¬ (now + 6 * minute ≤ now + 5 * minute) := by simp only [minute]; omega
      exact decide_eq_false this
    · simp only [List.mem_cons, not_or]
      exact ⟨fun h => hu.2 h.symm, hf⟩
    · simp [List.countP_append, hk]

theorem qexec_append : ∀ (l l' : List QLabel) (s : QState), qexec s (l ++ l') = (qexec s l).bind fun s => qexec s l'
  | [], _, _ => rfl
  | a :: l, l', s => by
    rw [List.cons_append, qexec, qexec]
    cases qstep s a with
    | none => rfl
    | some s1 => exact qexec_append l l' s1

end Clu

/-- Beyond the lifetime there is no bound: when each request takes more than five minutes to arrive, one query goes round for
ever (here: a node that has its own address among its sources). -/
theorem C37_unbounded (k : Nat) : ∃ ls s, qexec (qstart 0 [exN]) ls = some s ∧ k ≤ s.execs.countP (fun e => decide (e.uuid = "q")) := by
  have : ∃ ls s, qexec (qstart 0 [exN]) ls = some s ∧ Again "q" s (k + 1) := by
    induction k with
    | zero =>
      refine ⟨[.client ⟨0, exC "", 1, true⟩, .handle 0 "q" [0]], _, rfl, ⟨⟨_, rfl, rfl, ?_⟩, rfl, by decide, rfl⟩⟩
      intro x hx
      cases hx
    | succ k ih =>
      obtain ⟨ls, s, h1, h2⟩ := ih
      obtain ⟨s', h3, h4⟩ := again_step (by decide) h2
      exact ⟨ls ++ [.handle 0 "f" [0], .tick (s.now + 6 * minute)], s', by rw [qexec_append, h1]; exact h3, h4⟩
  obtain ⟨ls, s, h1, h2⟩ := this
  exact ⟨ls, s, h1, by rw [h2.count]; omega⟩

/-- Three nodes: four executions, two of them where the query entered; the last two requests are refused. -/
example : ∃ s, qexec (qstart 0 [exN, exN, exN]) exQ = some s ∧ (∀ e ∈ s.execs, e.uuid = "q" → 0 ≤ e.time ∧ e.time ≤ 0 + 5 * minute) ∧
    s.execs.countP (fun e => decide (e.uuid = "q")) = 4 ∧ s.execs.countP (fun e => decide (e.uuid = "q" ∧ e.node = 0)) = 2 := by
  have h : (qexec (qstart 0 [exN, exN, exN]) exQ).any (fun (s : QState) => decide ((∀ e ∈ s.execs, e.uuid = "q" → 0 ≤ e.time ∧ e.time ≤ 0 + 5 * minute) ∧
    s.execs.countP (fun e => decide (e.uuid = "q")) = 4 ∧ s.execs.countP (fun e => decide (e.uuid = "q" ∧ e.node = 0)) = 2)) = true := by decide +kernel
  cases he : qexec (qstart 0 [exN, exN, exN]) exQ with
  | none => rw [he] at h; cases h
  | some s => rw [he] at h; exact ⟨s, rfl, of_decide_eq_true h⟩

end Veri
