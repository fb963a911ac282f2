import Verif.Cluster.Complete
import Verif.Cluster.Flood
/-
C187: a search of the whole cluster as one execution: nodes search, ask their sources, wait for them, merge and answer.
-/
set_option autoImplicit false
namespace Veri
namespace Clu
open Search Agg Ref

/-- Where the handling of a request stands at a node. -/
inductive WPhase
  /-- The request has been sent to the node. -/
  | begun
  /-- data/search.go:183-200: the node has searched its own data, seen in the state `site`, and has sent the requests `kids`. -/
  | asked (site : Site) (own : List ScoredDatum) (kids : List Nat)
  /-- node/nodeservice.go:143-155: it has answered.  `parts` are the nodes that took part, with what they stored. -/
  | over (kids : List Nat) (parts : List (Nat × Site)) (found sent : List ScoredDatum)

/-- A request for the search at a node. -/
structure WTask where
  node : Nat
  config : SearchConfig
  phase : WPhase

/-- All requests so far, the first being the client's, and the nodes that remember the id of the query (node/nodeservice.go:120-135; for
how long: C174). -/
structure WState where
  tasks : List WTask
  noted : List Nat

/-- What is known of an answer. -/
structure WAns where
  config : SearchConfig
  parts : List (Nat × Site)
  found : List ScoredDatum
  sent : List ScoredDatum

def WState.ans (s : WState) (k : Nat) : Option WAns :=
  match s.tasks[k]? with
  | some ⟨_, c, .over _ ps f o⟩ => some ⟨c, ps, f, o⟩
  | _ => none

/-- A cluster: the sources of each node (node numbers), what a node may have in store while the search goes on, and the nodes that may fail
to answer. -/
structure Cluster where
  next : Nat → List Nat
  holds : Nat → Site → Prop
  faulty : Nat → Prop

/-- The steps of a search for the datum `q`.  `anon`: the client gave no id, so that the node asked by the client does not note it
(node/nodeservice.go:121-135 notes only an id that came with the request). -/
inductive WStep (E : Env) (q : Datum) (C : Cluster) (anon : Bool) : WState → WState → Prop
  /-- node/nodeservice.go:118-143, data/search.go:161-200: a node that has not seen the query searches and asks at most six sources, with the
  same configuration but for the timeout. -/
  | serve {s : WState} (j : Nat) (t : WTask) (site : Site) (dt' : Data) (own : List ScoredDatum) (dsts : List Nat) (timeout : UInt64) :
      s.tasks[j]? = some t → t.phase = .begun → t.node ∉ s.noted → C.holds t.node site →
      streamSearch E site.vs site.answer site.dt q (some t.config) = .ok (dt', own) → Picks (C.next t.node) dsts →
      WStep E q C anon s
        ⟨s.tasks.set j { t with phase := .asked site own (List.range' s.tasks.length dsts.length) } ++
          dsts.map (fun d => ⟨d, { t.config with timeout := timeout }, .begun⟩),
         if anon ∧ j = 0 then s.noted else t.node :: s.noted⟩
  /-- node/nodeservice.go:128-132: a node that has seen the query answers with nothing. -/
  | refuse {s : WState} (j : Nat) (t : WTask) : s.tasks[j]? = some t → t.phase = .begun → t.node ∈ s.noted →
      WStep E q C anon s { s with tasks := s.tasks.set j { t with phase := .over [] [] [] [] } }
  /-- A node that cannot be reached or has no such data set (node/nodeservice.go:136-139): its error is taken for
  an empty answer (node/datasourceclient.go:45-58).  It may have noted the id before. -/
  | fail {s : WState} (j : Nat) (t : WTask) (notes : Bool) : s.tasks[j]? = some t → t.phase = .begun → C.faulty t.node →
      WStep E q C anon s ⟨s.tasks.set j { t with phase := .over [] [] [] [] }, if notes then t.node :: s.noted else s.noted⟩
  /-- data/search.go:205-241 and 254-298, node/nodeservice.go:143-155: when all sources have answered, the node merges what came and answers. -/
  | reply {s : WState} (j : Nat) (t : WTask) (site : Site) (own : List ScoredDatum) (kids : List Nat) (as : List WAns)
      (got found sent : List ScoredDatum) :
      s.tasks[j]? = some t → t.phase = .asked site own kids → as.map some = kids.map s.ans →
      Collects (own :: as.map (·.sent)) got → flatMerge E t.config none got = .ok found → MultiOut E t.config none [found] sent →
      WStep E q C anon s
        { s with tasks := s.tasks.set j { t with phase := .over kids ((t.node, site) :: as.flatMap (·.parts)) found sent } }

/-- The beginning: the request of a client to the node `i`. -/
def WState.start (config : SearchConfig) (i : Nat) : WState := ⟨[⟨i, config, .begun⟩], []⟩

inductive WReach (E : Env) (q : Datum) (C : Cluster) (anon : Bool) (config : SearchConfig) (i : Nat) : WState → Prop
  | start : WReach E q C anon config i (.start config i)
  | step {s s' : WState} : WReach E q C anon config i s → WStep E q C anon s s' → WReach E q C anon config i s'

def WPhase.kids : WPhase → List Nat
  | .begun => []
  | .asked _ _ ks => ks
  | .over ks _ _ _ => ks

/-- There is a chain of sources, none of which (but perhaps the last) may fail. -/
inductive Intact (C : Cluster) (i : Nat) : Nat → Prop
  | refl : Intact C i i
  | step {j k : Nat} : Intact C i j → k ∈ C.next j → ¬ C.faulty k → Intact C i k

/-- The request has been served at the node `v`. -/
def WTask.At (C : Cluster) (t : WTask) (v : Nat) : Prop :=
  t.node = v ∧ match t.phase with
    | .begun => False
    | .asked site _ _ => C.holds v site
    | .over _ ps _ _ => ∃ site, C.holds v site ∧ (v, site) ∈ ps

def WState.Srv (C : Cluster) (s : WState) (v : Nat) : Prop := ∃ t ∈ s.tasks, t.At C v

structure WInv (E : Env) (q : Datum) (C : Cluster) (config : SearchConfig) (i : Nat) (s : WState) : Prop where
  root : ∃ t, s.tasks[0]? = some t ∧ t.node = i ∧ t.config = config
  conf : ∀ t ∈ s.tasks, ∃ tm, t.config = { config with timeout := tm }
  kid : ∀ (j : Nat) (t : WTask), s.tasks[j]? = some t → ∀ k ∈ t.phase.kids, j < k ∧ k < s.tasks.length
  few : ∀ t ∈ s.tasks, t.phase.kids.length ≤ 6
  par : ∀ k, 0 < k → k < s.tasks.length → ∃ j, j < k ∧ ∃ t, s.tasks[j]? = some t ∧ k ∈ t.phase.kids
  asked : ∀ t ∈ s.tasks, ∀ site own ks, t.phase = .asked site own ks → C.holds t.node site ∧
    ∃ dt', streamSearch E site.vs site.answer site.dt q (some t.config) = .ok (dt', own)
  over : ∀ t ∈ s.tasks, ∀ ks ps f o, t.phase = .over ks ps f o → AggOut E q t.config (ps.map (·.2)) f ∧ MultiOut E t.config none [f] o ∧
    (∀ p ∈ ps, C.holds p.1 p.2) ∧ (∀ k ∈ ks, ∃ a, s.ans k = some a ∧ ∀ p ∈ a.parts, p ∈ ps) ∧ (s.Srv C t.node ∨ C.faulty t.node)
  noted : ∀ v ∈ s.noted, s.Srv C v ∨ C.faulty v
  on : ∀ t ∈ s.tasks, t.At C t.node → (C.next t.node).length ≤ 6 → ∀ w ∈ C.next t.node, ∃ k ∈ t.phase.kids, ∃ t', s.tasks[k]? = some t' ∧ t'.node = w

theorem silent_flat (E : Env) {config : SearchConfig} (hr : config.resultLimit.toNat < 2^63) : flatMerge E config none [] = .ok [] := by
  unfold flatMerge
  simp only [Flat.insertAll, Res.bind_ok]
  rw [result_eq]
  have : (newFlat config none).config = config := rfl
  rw [this]
  by_cases h0 : config.resultLimit = 0
  · rw [if_pos h0]; rfl
  · rw [if_neg h0, if_neg (by omega)]
    simp [newFlat]

theorem silent_multi (E : Env) {config : SearchConfig} (hr : config.resultLimit.toNat < 2^63) : MultiOut E config none [[]] [] := by
  obtain ⟨got, hg⟩ := collects_exists [[]]
  have : got = [] := by
    have := collects_perm hg
    simp at this
    exact this
  subst this
  refine ⟨[], id, hg, fun m => List.Perm.refl _, ?_⟩
  unfold multiMerge
  split
  · simp only [Grouped.insertAll, Res.bind_ok, newGrouped, Grouped.result, List.map_nil, insertOnes, id]
    exact silent_flat E hr
  · exact silent_flat E hr

/-- One request changes and new ones may come. -/
structure Upd (s s' : WState) (j : Nat) (t t' : WTask) (new : List WTask) : Prop where
  was : s.tasks[j]? = some t
  tasks : s'.tasks = s.tasks.set j t' ++ new
  open_ : ∀ ks ps f o, t.phase ≠ .over ks ps f o

section
variable {s s' : WState} {j : Nat} {t t' : WTask} {new : List WTask} (u : Upd s s' j t t' new)
include u

theorem Upd.lt : j < s.tasks.length := (List.getElem?_eq_some_iff.1 u.was).1

theorem Upd.length : s'.tasks.length = s.tasks.length + new.length := by rw [u.tasks]; simp

theorem Upd.at_ : s'.tasks[j]? = some t' := by
  have := u.lt
  rw [u.tasks, List.getElem?_append_left (by simpa using this), List.getElem?_set_self this]

theorem Upd.other {k : Nat} (hk : k < s.tasks.length) (hj : k ≠ j) : s'.tasks[k]? = s.tasks[k]? := by
  rw [u.tasks, List.getElem?_append_left (by simpa using hk), List.getElem?_set_ne (by omega)]

theorem Upd.new_ (k : Nat) : s'.tasks[s.tasks.length + k]? = new[k]? := by
  rw [u.tasks, List.getElem?_append_right (by simp)]; simp

theorem Upd.mem {x : WTask} (h : x ∈ s'.tasks) : x = t' ∨ x ∈ new ∨ x ∈ s.tasks := by
  rw [u.tasks, List.mem_append] at h
  rcases h with h | h
  · rcases List.mem_or_eq_of_mem_set h with h | h
    · exact Or.inr (Or.inr h)
    · exact Or.inl h
  · exact Or.inr (Or.inl h)

theorem Upd.get {k : Nat} {x : WTask} (h : s'.tasks[k]? = some x) :
    (k = j ∧ x = t') ∨ (s.tasks.length ≤ k ∧ x ∈ new) ∨ (k ≠ j ∧ k < s.tasks.length ∧ s.tasks[k]? = some x) := by
  by_cases hk : k < s.tasks.length
  · by_cases hj : k = j
    · subst hj
      rw [u.at_] at h
      exact Or.inl ⟨rfl, (Option.some.inj h).symm⟩
    · rw [u.other hk hj] at h
      exact Or.inr (Or.inr ⟨hj, hk, h⟩)
  · refine Or.inr (Or.inl ⟨by omega, ?_⟩)
    obtain ⟨m, rfl⟩ := Nat.exists_eq_add_of_le (Nat.le_of_not_lt hk)
    rw [u.new_] at h
    exact List.mem_of_getElem? h

theorem Upd.ans {k : Nat} {a : WAns} (h : s.ans k = some a) : s'.ans k = some a := by
  unfold WState.ans at h ⊢
  split at h
  · rename_i nd c ks ps f o hk
    have hlt := (List.getElem?_eq_some_iff.1 hk).1
    have hj : k ≠ j := by
      intro e
      subst e
      rw [u.was] at hk
      cases hk
      exact u.open_ _ _ _ _ rfl
    rw [u.other hlt hj, hk]
    exact h
  · cases h

theorem Upd.srv {C : Cluster} (hat : ∀ v, t.At C v → t'.At C v) {v : Nat} (h : s.Srv C v) : s'.Srv C v := by
  obtain ⟨x, hx, hv⟩ := h
  obtain ⟨k, hk⟩ := List.getElem?_of_mem hx
  by_cases hj : k = j
  · subst hj
    rw [u.was] at hk
    cases hk
    exact ⟨t', List.mem_of_getElem? u.at_, hat v hv⟩
  · rw [← u.other (List.getElem?_eq_some_iff.1 hk).1 hj] at hk
    exact ⟨x, List.mem_of_getElem? hk, hv⟩

theorem Upd.inv {E : Env} {q : Datum} {C : Cluster} {config : SearchConfig} {i : Nat} (hi : WInv E q C config i s)
    (hnode : t'.node = t.node) (hconf : t'.config = t.config)
    (hnew : ∀ x ∈ new, x.phase = .begun ∧ ∃ tm, x.config = { config with timeout := tm })
    (hsub : ∀ k ∈ t.phase.kids, k ∈ t'.phase.kids)
    (hk1 : ∀ k ∈ t'.phase.kids, j < k ∧ k < s.tasks.length + new.length) (hk2 : t'.phase.kids.length ≤ 6)
    (hk3 : ∀ k, s.tasks.length ≤ k → k < s.tasks.length + new.length → k ∈ t'.phase.kids)
    (hat : ∀ v, t.At C v → t'.At C v)
    (hasked : ∀ site own ks, t'.phase = .asked site own ks → C.holds t'.node site ∧
      ∃ dt', streamSearch E site.vs site.answer site.dt q (some t'.config) = .ok (dt', own))
    (hover : ∀ ks ps f o, t'.phase = .over ks ps f o → AggOut E q t'.config (ps.map (·.2)) f ∧ MultiOut E t'.config none [f] o ∧
      (∀ p ∈ ps, C.holds p.1 p.2) ∧ (∀ k ∈ ks, ∃ a, s.ans k = some a ∧ ∀ p ∈ a.parts, p ∈ ps) ∧ (s'.Srv C t'.node ∨ C.faulty t'.node))
    (hnoted : ∀ v ∈ s'.noted, v ∈ s.noted ∨ t'.At C v ∨ C.faulty v)
    (hon : t'.At C t'.node → (C.next t'.node).length ≤ 6 → ∀ w ∈ C.next t'.node, ∃ k ∈ t'.phase.kids, ∃ x, s'.tasks[k]? = some x ∧ x.node = w) :
    WInv E q C config i s' := by
  have htm : t ∈ s.tasks := List.mem_of_getElem? u.was
  refine ⟨?_, ?_, ?_, ?_, ?_, ?_, ?_, ?_, ?_⟩
  · obtain ⟨r, h1, h2, h3⟩ := hi.root
    by_cases h0 : j = 0
    · subst h0
      have h4 := u.was
      rw [h1] at h4
      cases h4
      exact ⟨t', u.at_, by rw [hnode, h2], by rw [hconf, h3]⟩
    · exact ⟨r, by rw [u.other (by have := u.lt; omega) (by omega)]; exact h1, h2, h3⟩
  · intro x hx
    rcases u.mem hx with rfl | hx | hx
    · rw [hconf]; exact hi.conf t htm
    · exact (hnew x hx).2
    · exact hi.conf x hx
  · intro k x hx m hm
    rw [u.length]
    rcases u.get hx with ⟨rfl, rfl⟩ | ⟨-, hx⟩ | ⟨-, -, hx⟩
    · exact hk1 m hm
    · rw [(hnew x hx).1] at hm; cases hm
    · have := hi.kid k x hx m hm
      omega
  · intro x hx
    rcases u.mem hx with rfl | hx | hx
    · exact hk2
    · rw [(hnew x hx).1]; simp [WPhase.kids]
    · exact hi.few x hx
  · intro k h0 hk
    rw [u.length] at hk
    by_cases hlt : k < s.tasks.length
    · obtain ⟨p, hp, x, hx, hkx⟩ := hi.par k h0 hlt
      refine ⟨p, hp, ?_⟩
      by_cases hj : p = j
      · subst hj
        rw [u.was] at hx
        cases hx
        exact ⟨t', u.at_, hsub k hkx⟩
      · exact ⟨x, by rw [u.other (by omega) hj]; exact hx, hkx⟩
    · exact ⟨j, by have := u.lt; omega, t', u.at_, hk3 k (by omega) hk⟩
  · intro x hx
    rcases u.mem hx with rfl | hx | hx
    · exact hasked
    · intro site own ks he; rw [(hnew x hx).1] at he; cases he
    · exact hi.asked x hx
  · intro x hx ks ps f o he
    have hup : ∀ {P : WAns → Prop} {k : Nat}, (∃ a, s.ans k = some a ∧ P a) → ∃ a, s'.ans k = some a ∧ P a :=
      fun ⟨a, h1, h2⟩ => ⟨a, u.ans h1, h2⟩
    rcases u.mem hx with rfl | hx | hx
    · obtain ⟨h1, h2, h3, h4, h5⟩ := hover ks ps f o he
      exact ⟨h1, h2, h3, fun k hk => hup (h4 k hk), h5⟩
    · rw [(hnew x hx).1] at he; cases he
    · obtain ⟨h1, h2, h3, h4, h5⟩ := hi.over x hx ks ps f o he
      exact ⟨h1, h2, h3, fun k hk => hup (h4 k hk), h5.imp (u.srv hat) id⟩
  · intro v hv
    rcases hnoted v hv with h | h | h
    · exact (hi.noted v h).imp (u.srv hat) id
    · exact Or.inl ⟨t', List.mem_of_getElem? u.at_, h⟩
    · exact Or.inr h
  · intro x hx hxat h6 w hw
    rcases u.mem hx with rfl | hx | hx
    · exact hon hxat h6 w hw
    · have := hxat.2; rw [(hnew x hx).1] at this; exact this.elim
    · obtain ⟨k, hk, y, hy, hyw⟩ := hi.on x hx hxat h6 w hw
      refine ⟨k, hk, ?_⟩
      by_cases hj : k = j
      · subst hj
        rw [u.was] at hy
        cases hy
        exact ⟨t', u.at_, by rw [hnode, hyw]⟩
      · exact ⟨y, by rw [u.other (List.getElem?_eq_some_iff.1 hy).1 hj]; exact hy, hyw⟩

end

theorem winv_start (E : Env) (q : Datum) (C : Cluster) (config : SearchConfig) (i : Nat) : WInv E q C config i (.start config i) := by
  have hm : ∀ t ∈ (WState.start config i).tasks, t = ⟨i, config, .begun⟩ := by simp [WState.start]
  refine ⟨⟨_, rfl, rfl, rfl⟩, ?_, ?_, ?_, ?_, ?_, ?_, ?_, ?_⟩
  · intro t ht; rw [hm t ht]; exact ⟨config.timeout, rfl⟩
  · intro j t ht k hk; rw [hm t (List.mem_of_getElem? ht)] at hk; cases hk
  · intro t ht; rw [hm t ht]; simp [WPhase.kids]
  · intro k h0 hk; simp [WState.start] at hk; omega
  · intro t ht site own ks he; rw [hm t ht] at he; cases he
  · intro t ht ks ps f o he; rw [hm t ht] at he; cases he
  · intro v hv; cases hv
  · intro t ht hat; rw [hm t ht] at hat; exact hat.2.elim

theorem winv_silent {E : Env} {q : Datum} {C : Cluster} {config : SearchConfig} {i : Nat} (hr : config.resultLimit.toNat < 2^63) {s : WState}
    (hi : WInv E q C config i s) {j : Nat} {t : WTask} (h1 : s.tasks[j]? = some t) (h2 : t.phase = .begun)
    (h3 : s.Srv C t.node ∨ C.faulty t.node) (noted : List Nat) (h4 : ∀ v ∈ noted, v ∈ s.noted ∨ C.faulty v) :
    WInv E q C config i ⟨s.tasks.set j { t with phase := .over [] [] [] [] }, noted⟩ := by
  have u : Upd s ⟨s.tasks.set j { t with phase := .over [] [] [] [] }, noted⟩ j t { t with phase := .over [] [] [] [] } [] :=
    ⟨h1, by simp, fun _ _ _ _ => by rw [h2]; simp⟩
  have hat : ∀ v, t.At C v → WTask.At C { t with phase := .over [] [] [] [] } v := fun v hv => by
    have := hv.2; rw [h2] at this; exact this.elim
  refine u.inv hi rfl rfl (by simp) (by rw [h2]; simp [WPhase.kids]) (by simp [WPhase.kids]) (by simp [WPhase.kids])
    (fun k h4 h5 => by simp at h5; omega) hat (by simp) ?_ (fun v hv => (h4 v hv).imp id Or.inr) ?_
  · intro ks ps f o he
    injection he with e1 e2 e3 e4
    subst e1 e2 e3 e4
    refine ⟨.silent _, ?_, by simp, by simp, h3.imp (u.srv hat) id⟩
    obtain ⟨tm, htm⟩ := hi.conf t (List.mem_of_getElem? h1)
    exact silent_multi E (by show t.config.resultLimit.toNat < _; rw [htm]; exact hr)
  · rintro ⟨-, site, -, hp⟩
    cases hp

theorem winv_step {E : Env} {q : Datum} {C : Cluster} {anon : Bool} {config : SearchConfig} {i : Nat} (hr : config.resultLimit.toNat < 2^63)
    {s s' : WState} (hi : WInv E q C config i s) (h : WStep E q C anon s s') : WInv E q C config i s' := by
  cases h with
  | refuse j t h1 h2 h3 => exact winv_silent hr hi h1 h2 (hi.noted _ h3) _ fun v hv => Or.inl hv
  | fail j t notes h1 h2 h3 =>
    refine winv_silent hr hi h1 h2 (Or.inr h3) _ fun v hv => ?_
    split at hv
    · rcases List.mem_cons.1 hv with rfl | hv
      · exact Or.inr h3
      · exact Or.inl hv
    · exact Or.inl hv
  | serve j t site dt' own dsts timeout h1 h2 h3 h4 h5 h6 =>
    have u : Upd s _ j t { t with phase := .asked site own (List.range' s.tasks.length dsts.length) }
      (dsts.map (fun d => ⟨d, { t.config with timeout := timeout }, .begun⟩)) :=
      (⟨h1, rfl, fun _ _ _ _ => by rw [h2]; simp⟩ : Upd s ⟨s.tasks.set j { t with phase := .asked site own (List.range' s.tasks.length dsts.length) } ++
          dsts.map (fun d => ⟨d, { t.config with timeout := timeout }, .begun⟩),
         if anon ∧ j = 0 then s.noted else t.node :: s.noted⟩ j t _ _)
    have hlt := u.lt
    refine u.inv hi rfl rfl ?_ (by rw [h2]; simp [WPhase.kids]) ?_ ?_ ?_ ?_ ?_ (by simp) ?_ ?_
    · intro x hx
      obtain ⟨d, -, rfl⟩ := List.mem_map.1 hx
      obtain ⟨tm, htm⟩ := hi.conf t (List.mem_of_getElem? h1)
      exact ⟨rfl, timeout, by simp only [htm]⟩
    · intro k hk
      simp only [WPhase.kids, List.mem_range'_1] at hk
      simp only [List.length_map]
      omega
    · obtain ⟨o, -, rfl⟩ := h6
      simp only [WPhase.kids, List.length_range', List.length_take]
      omega
    · intro k hk1 hk2
      simp only [List.length_map] at hk2
      simp only [WPhase.kids, List.mem_range'_1]
      omega
    · intro v hv
      have := hv.2; rw [h2] at this; exact this.elim
    · intro site' own' ks he
      injection he with e1 e2 e3
      subst e1 e2
      exact ⟨h4, dt', h5⟩
    · intro v hv
      have hv : v ∈ (if anon ∧ j = 0 then s.noted else t.node :: s.noted) := hv
      split at hv
      · exact Or.inl hv
      · rcases List.mem_cons.1 hv with rfl | hv
        · exact Or.inr (Or.inl ⟨rfl, h4⟩)
        · exact Or.inl hv
    · intro _ hl6 w hw
      obtain ⟨m, hm⟩ := List.getElem?_of_mem (picks_all h6 hl6 hw)
      have hml := (List.getElem?_eq_some_iff.1 hm).1
      refine ⟨s.tasks.length + m, by simp only [WPhase.kids, List.mem_range'_1]; omega, ⟨w, { t.config with timeout := timeout }, .begun⟩, ?_, rfl⟩
      rw [u.new_, List.getElem?_map, hm]
      rfl
  | reply j t site own kids as got found sent h1 h2 h3 h4 h5 h6 =>
    have u : Upd s { s with tasks := s.tasks.set j { t with phase := .over kids ((t.node, site) :: as.flatMap (·.parts)) found sent } } j t
        { t with phase := .over kids ((t.node, site) :: as.flatMap (·.parts)) found sent } [] :=
      ⟨h1, by simp, fun _ _ _ _ => by rw [h2]; simp⟩
    have htm := List.mem_of_getElem? h1
    have hkids : t.phase.kids = kids := by rw [h2]; rfl
    obtain ⟨hh, dt', hown⟩ := hi.asked t htm site own kids h2
    have hans : ∀ a ∈ as, ∃ k ∈ kids, s.ans k = some a := by
      intro a ha
      have : some a ∈ kids.map s.ans := by rw [← h3]; exact List.mem_map_of_mem ha
      obtain ⟨k, hk, he⟩ := List.mem_map.1 this
      exact ⟨k, hk, he⟩
    have hpart : ∀ a ∈ as, ∃ x ∈ s.tasks, x.config = a.config ∧ ∃ ks, x.phase = .over ks a.parts a.found a.sent := by
      intro a ha
      obtain ⟨k, -, hk⟩ := hans a ha
      unfold WState.ans at hk
      split at hk
      · rename_i nd c ks ps f o hx
        cases hk
        exact ⟨_, List.mem_of_getElem? hx, rfl, ks, rfl⟩
      · cases hk
    have hself : WTask.At C { t with phase := .over kids ((t.node, site) :: as.flatMap (·.parts)) found sent } t.node :=
      ⟨rfl, site, hh, List.mem_cons_self⟩
    refine u.inv hi rfl rfl (by simp) (by rw [hkids]; exact fun k hk => hk) ?_ ?_ (fun k h4 h5 => by simp at h5; omega) ?_ (by simp) ?_
      (fun v hv => Or.inl hv) ?_
    · intro k hk
      have := hi.kid j t h1 k (by rw [hkids]; exact hk)
      simpa using this
    · have := hi.few t htm; rw [hkids] at this; exact this
    · intro v hv
      rw [← hv.1]; exact hself
    · intro ks ps f o he
      injection he with e1 e2 e3 e4
      subst e1 e2 e3 e4
      refine ⟨?_, h6, ?_, ?_, Or.inl ⟨_, List.mem_of_getElem? u.at_, hself⟩⟩
      · have := AggOut.node (E := E) (q := q) t.config site dt' own (as.map fun a => ⟨a.config, a.parts.map (·.2), a.found, a.sent⟩) got found hown
          ?_ ?_ ?_ ?_ (by rw [List.map_map]; exact h4) h5
        · rw [List.flatMap_map] at this
          simpa [List.map_flatMap] using this
        · intro p hp
          obtain ⟨a, ha, rfl⟩ := List.mem_map.1 hp
          obtain ⟨x, hx, hc, -⟩ := hpart a ha
          obtain ⟨tm, h8⟩ := hi.conf x hx
          obtain ⟨tm', h9⟩ := hi.conf t htm
          exact ⟨tm, by show a.config = _; rw [← hc, h8, h9]⟩
        · intro p hp
          obtain ⟨a, ha, rfl⟩ := List.mem_map.1 hp
          obtain ⟨x, hx, hc, ks, he⟩ := hpart a ha
          have := (hi.over x hx _ _ _ _ he).1
          rw [hc] at this
          exact this
        · intro p hp
          obtain ⟨a, ha, rfl⟩ := List.mem_map.1 hp
          obtain ⟨x, hx, hc, ks, he⟩ := hpart a ha
          have := (hi.over x hx _ _ _ _ he).2.1
          rw [hc] at this
          exact this
        · have := hi.few t htm
          rw [hkids] at this
          have hl := congrArg List.length h3
          simp only [List.length_map] at hl ⊢
          omega
      · intro p hp
        rcases List.mem_cons.1 hp with rfl | hp
        · exact hh
        · obtain ⟨a, ha, hp⟩ := List.mem_flatMap.1 hp
          obtain ⟨x, hx, -, ks, he⟩ := hpart a ha
          exact (hi.over x hx _ _ _ _ he).2.2.1 p hp
      · intro k hk
        have : s.ans k ∈ as.map some := by rw [h3]; exact List.mem_map_of_mem hk
        obtain ⟨a, ha, he⟩ := List.mem_map.1 this
        exact ⟨a, he.symm, fun p hp => List.mem_cons_of_mem _ (List.mem_flatMap.2 ⟨a, ha, hp⟩)⟩
    · intro _ hl6 w hw
      have hat : t.At C t.node := ⟨rfl, by rw [h2]; exact hh⟩
      obtain ⟨k, hk, y, hy, hyw⟩ := hi.on t htm hat hl6 w hw
      rw [hkids] at hk
      refine ⟨k, hk, ?_⟩
      have hkj := (hi.kid j t h1 k (by rw [hkids]; exact hk)).1
      exact ⟨y, by rw [u.other (List.getElem?_eq_some_iff.1 hy).1 (by omega)]; exact hy, hyw⟩

theorem winv_reach {E : Env} {q : Datum} {C : Cluster} {anon : Bool} {config : SearchConfig} {i : Nat} (hr : config.resultLimit.toNat < 2^63)
    {s : WState} (h : WReach E q C anon config i s) : WInv E q C config i s := by
  induction h with
  | start => exact winv_start ..
  | step _ hs ih => exact winv_step hr ih hs

/-- Once the first request is answered, all are, and what they contributed is in its answer. -/
theorem all_over {E : Env} {q : Datum} {C : Cluster} {config : SearchConfig} {i : Nat} {s : WState} (hi : WInv E q C config i s) {a : WAns}
    (ha : s.ans 0 = some a) : ∀ (n k : Nat), k ≤ n → k < s.tasks.length → ∃ b, s.ans k = some b ∧ ∀ p ∈ b.parts, p ∈ a.parts := by
  intro n
  induction n with
  | zero =>
    intro k hk _
    have : k = 0 := by omega
    subst this
    exact ⟨a, ha, fun p hp => hp⟩
  | succ n ih =>
    intro k hk hl
    by_cases h0 : k = 0
    · subst h0; exact ⟨a, ha, fun p hp => hp⟩
    · obtain ⟨j, hj, x, hx, hkx⟩ := hi.par k (by omega) hl
      obtain ⟨b, hb, hba⟩ := ih j (by omega) (by omega)
      unfold WState.ans at hb
      rw [hx] at hb
      obtain ⟨nd, c, ph⟩ := x
      cases ph with
      | begun => cases hb
      | asked => cases hb
      | over ks ps f o =>
        cases hb
        obtain ⟨b', h1, h2⟩ := (hi.over _ (List.mem_of_getElem? hx) ks ps f o rfl).2.2.2.1 k hkx
        exact ⟨b', h1, fun p hp => hba p (h2 p hp)⟩


theorem sound_served {E : Env} {q : Datum} {C : Cluster} {config : SearchConfig} {i : Nat} {s : WState} (hi : WInv E q C config i s) {a : WAns}
    (ha : s.ans 0 = some a) (h6 : ∀ v, (C.next v).length ≤ 6) (h0 : ¬ C.faulty i) {v : Nat} (h : Intact C i v) : s.Srv C v := by
  have hover : ∀ (k : Nat) (t : WTask), s.tasks[k]? = some t → s.Srv C t.node ∨ C.faulty t.node := by
    intro k t ht
    obtain ⟨b, hb, -⟩ := all_over hi ha k k (Nat.le_refl _) (List.getElem?_eq_some_iff.1 ht).1
    unfold WState.ans at hb
    rw [ht] at hb
    obtain ⟨nd, c, ph⟩ := t
    cases ph with
    | begun => cases hb
    | asked => cases hb
    | over ks ps f o => exact (hi.over _ (List.mem_of_getElem? ht) ks ps f o rfl).2.2.2.2
  induction h with
  | refl =>
    obtain ⟨t, h1, h2, -⟩ := hi.root
    rcases hover 0 t h1 with h | h
    · rw [h2] at h; exact h
    · rw [h2] at h; exact absurd h h0
  | step _ hw hf ih =>
    obtain ⟨t, ht, hat⟩ := ih
    have hn := hat.1
    obtain ⟨k, -, y, hy, hyw⟩ := hi.on t ht (by rw [hn]; exact hat) (h6 _) _ (by rw [hn]; exact hw)
    rcases hover k y hy with h | h
    · rw [hyw] at h; exact h
    · rw [hyw] at h; exact absurd h hf

theorem sound_parts {E : Env} {q : Datum} {C : Cluster} {config : SearchConfig} {i : Nat} {s : WState} (hi : WInv E q C config i s) {a : WAns}
    (ha : s.ans 0 = some a) {v : Nat} (h : s.Srv C v) : ∃ site, C.holds v site ∧ (v, site) ∈ a.parts := by
  obtain ⟨t, ht, hat⟩ := h
  obtain ⟨k, hk⟩ := List.getElem?_of_mem ht
  obtain ⟨b, hb, hba⟩ := all_over hi ha k k (Nat.le_refl _) (List.getElem?_eq_some_iff.1 hk).1
  unfold WState.ans at hb
  rw [hk] at hb
  obtain ⟨nd, c, ph⟩ := t
  cases ph with
  | begun => cases hb
  | asked => cases hb
  | over ks ps f o =>
    cases hb
    obtain ⟨-, site, h1, h2⟩ := hat
    exact ⟨site, h1, hba _ h2⟩

theorem root_out {E : Env} {q : Datum} {C : Cluster} {config : SearchConfig} {i : Nat} {s : WState} (hi : WInv E q C config i s) {a : WAns}
    (ha : s.ans 0 = some a) : AggOut E q config (a.parts.map (·.2)) a.found ∧ ∀ p ∈ a.parts, C.holds p.1 p.2 := by
  obtain ⟨⟨nd, c, ph⟩, h1, -, h3⟩ := hi.root
  unfold WState.ans at ha
  rw [h1] at ha
  cases ph with
  | begun => cases ha
  | asked => cases ha
  | over ks ps f o =>
    cases ha
    have h3 : c = config := h3
    subst h3
    have := hi.over _ (List.mem_of_getElem? h1) ks ps f o rfl
    exact ⟨this.1, this.2.2.1⟩

end Clu
open Clu Search Store

/-- **C187.**  A search of the whole cluster, in any order of events: a client asks node `i` for what is near `q`; each node that takes the query
searches its own data and asks its sources, waits for their answers, merges them with its own and answers; a node that is asked again for the
same query answers with nothing; the nodes of `faulty` may fail to answer.  If no node has more than six sources and the limits leave room for all
keys that match, then the client gets every datum that matches and is stored, throughout the search, at some node which is connected with `i` by
a chain of sources that do not fail; and nothing else but matching data of nodes of the cluster, none twice. -/
theorem C187_whole_cluster (E : Env) (hE : E.Ok) (C : Cluster) (anon : Bool) (config : SearchConfig) (context : Option SearchContext) (i : Nat)
    (q : DatumKey) (qv : Option DatumValue) (s : WState) (a : WAns) (out : List ScoredDatum) (h6 : ∀ v, (C.next v).length ≤ 6) (h0 : ¬ C.faulty i)
    (hl : 0 < config.limit) (hr : config.resultLimit.toNat < 2^63) (hg : config.groupLimit = 0)
    (hname : ¬ "Annoy".toList <+: config.scoreFuncName.toList) (hok : ∀ v site, C.holds v site → site.Ok)
    (keys : List (Option DatumKey)) (hroom : keys.length ≤ Ref.asked config)
    (hk : ∀ v site, C.holds v site → ∀ x, Ref.IsHit E config q (Ref.shows (abs site.dt.dbMap) site.clock) x → x.datum.key ∈ keys)
    (hs : WReach E ⟨some q, qv⟩ C anon config i s) (ha : s.ans 0 = some a) (ho : MultiOut E config context [a.found] out) :
    (∀ v, Intact C i v → ∀ x, (∀ site, C.holds v site → Ref.IsHit E config q (Ref.shows (abs site.dt.dbMap) site.clock) x) →
      ∃ y ∈ out, y.datum.key = x.datum.key) ∧
    (∀ y ∈ out, ∃ v site x, C.holds v site ∧ Ref.IsHit E config q (Ref.shows (abs site.dt.dbMap) site.clock) x ∧ y.datum = x.datum) ∧
    (out.map (·.datum.key)).Nodup := by
  have hi := winv_reach hr hs
  obtain ⟨hagg, hh⟩ := root_out hi ha
  have hin : ∀ x, Ref.IsHitIn E config q (shelves (a.parts.map (·.2))) x ↔
      ∃ p ∈ a.parts, Ref.IsHit E config q (Ref.shows (abs p.2.dt.dbMap) p.2.clock) x := by
    intro x
    simp [Ref.IsHitIn, shelves]
  obtain ⟨r1, r2, r3⟩ := C168_all_returned E hE config context [(q, qv)] [(a.parts.map (·.2), a.found)] out hl hg hname
    (by
      intro p hp site hs
      rw [List.mem_singleton.1 hp] at hs
      obtain ⟨p', hp', rfl⟩ := List.mem_map.1 hs
      exact hok _ _ (hh p' hp'))
    keys (by simpa using hroom)
    (by
      intro p hp x hx
      simp only [List.zip_cons_cons, List.zip_nil_right, List.mem_singleton] at hp
      subst hp
      obtain ⟨p', hp', hx⟩ := (hin x).1 hx
      exact hk _ _ (hh p' hp') x hx)
    ⟨rfl, by
      intro p hp
      simp only [List.map_cons, List.map_nil, List.zip_cons_cons, List.zip_nil_right, List.mem_singleton] at hp
      subst hp
      exact hagg, ho⟩
  refine ⟨?_, ?_, r3 rfl⟩
  · intro v hv x hx
    obtain ⟨site, h1, h2⟩ := sound_parts hi ha (sound_served hi ha h6 h0 hv)
    exact r1 ((q, qv), (a.parts.map (·.2), a.found)) (by simp) x ((hin x).2 ⟨_, h2, hx site h1⟩)
  · intro y hy
    obtain ⟨p, hp, x, hx, he⟩ := r2 y hy
    simp only [List.zip_cons_cons, List.zip_nil_right, List.mem_singleton] at hp
    subst hp
    obtain ⟨p', hp', hx⟩ := (hin x).1 hx
    exact ⟨_, _, x, hh p' hp', hx, he⟩

/-- C187: if there is no room for all and higher is better, the client gets the best of the matching data of nodes that include all which are
connected with `i` by a chain of sources that do not fail. -/
theorem C187_best (E : Env) (hE : E.Ok) (C : Cluster) (anon : Bool) (config : SearchConfig) (i : Nat)
    (q : DatumKey) (qv : Option DatumValue) (s : WState) (a : WAns) (out : List ScoredDatum) (h6 : ∀ v, (C.next v).length ≤ 6) (h0 : ¬ C.faulty i)
    (hl : 0 < config.limit) (hr : config.resultLimit.toNat < 2^63) (hg : config.groupLimit = 0) (hb : config.higherIsBetter = true)
    (hname : ¬ "Annoy".toList <+: config.scoreFuncName.toList) (hok : ∀ v site, C.holds v site → site.Ok)
    (hn : ∀ v site, C.holds v site → ∀ x, Ref.IsHit E config q (Ref.shows (abs site.dt.dbMap) site.clock) x → F64.isNaN x.score = false)
    (hs : WReach E ⟨some q, qv⟩ C anon config i s) (ha : s.ans 0 = some a) (ho : MultiOut E config none [a.found] out) :
    ∃ parts : List (Nat × Site), (∀ p ∈ parts, C.holds p.1 p.2) ∧ (∀ v, Intact C i v → ∃ site, (v, site) ∈ parts) ∧
    ∃ cands, Ref.OnePerKey (Ref.IsHitIn E config q (shelves (parts.map (·.2)))) cands ∧
      IsTopK (Ref.better config.higherIsBetter) (Ref.asked config) cands out := by
  have hi := winv_reach hr hs
  obtain ⟨hagg, hh⟩ := root_out hi ha
  have hname : Vec.isAnnoyName config.scoreFuncName = false := by
    cases h : Vec.isAnnoyName config.scoreFuncName with
    | false => rfl
    | true => exact absurd (List.isPrefixOf_iff_prefix.mp h) hname
  refine ⟨a.parts, hh, fun v hv => ?_, ?_⟩
  · obtain ⟨site, -, h2⟩ := sound_parts hi ha (sound_served hi ha h6 h0 hv)
    exact ⟨site, h2⟩
  · refine C95_cluster_search_partial E config q qv (a.parts.map (·.2)) a.found out hE hl hg hname ?_ ?_ [] (.inl hb) ⟨rfl, ?_, ho⟩
    · intro site hs
      obtain ⟨p, hp, rfl⟩ := List.mem_map.1 hs
      exact hok _ _ (hh p hp)
    · intro x hx
      simp only [Ref.IsHitIn, shelves, List.map_map, List.mem_map] at hx
      obtain ⟨sh, ⟨p, hp, rfl⟩, hx⟩ := hx
      exact hn _ _ (hh p hp) x hx
    · intro p hp
      simp only [List.zip_cons_cons, List.zip_nil_right, List.mem_singleton] at hp
      subst hp
      exact hagg

namespace Clu
open Agg Ref

/-- Executions with the number of steps. -/
inductive WRun (E : Env) (q : Datum) (C : Cluster) (anon : Bool) (config : SearchConfig) (i : Nat) : Nat → WState → Prop
  | start : WRun E q C anon config i 0 (.start config i)
  | step {n : Nat} {s s' : WState} : WRun E q C anon config i n s → WStep E q C anon s s' → WRun E q C anon config i (n + 1) s'

theorem WRun.reach {E : Env} {q : Datum} {C : Cluster} {anon : Bool} {config : SearchConfig} {i n : Nat} {s : WState}
    (h : WRun E q C anon config i n s) : WReach E q C anon config i s := by
  induction h with
  | start => exact .start
  | step _ h ih => exact .step ih h

/-- How much a request may still cost. -/
def WTask.cost (t : WTask) : Nat :=
  match t.phase with
  | .begun => 2
  | .asked .. => 1
  | .over .. => 0

def WState.unseen (N : Nat) (s : WState) : Nat := ((List.range N).filter fun v => decide (v ∉ s.noted)).length

def WState.first (anon : Bool) (s : WState) : Nat :=
  match s.tasks[(0 : Nat)]? with
  | some ⟨_, _, .begun⟩ => if anon then 12 else 0
  | _ => 0

def WState.cost (N : Nat) (anon : Bool) (s : WState) : Nat := (s.tasks.map WTask.cost).sum + 12 * s.unseen N + s.first anon

theorem cost_set : ∀ (l : List WTask) (j : Nat) (t t' : WTask), l[j]? = some t →
    ((l.set j t').map WTask.cost).sum + t.cost = (l.map WTask.cost).sum + t'.cost
  | [], _, _, _, h => by simp at h
  | x :: l, 0, t, t', h => by
    simp only [List.getElem?_cons_zero, Option.some.injEq] at h
    subst h
    simp only [List.set_cons_zero, List.map_cons, List.sum_cons]
    omega
  | x :: l, j + 1, t, t', h => by
    simp only [List.getElem?_cons_succ] at h
    have := cost_set l j t t' h
    simp only [List.set_cons_succ, List.map_cons, List.sum_cons]
    omega

theorem begun_cost (c : SearchConfig) : ∀ (ds : List Nat), ((ds.map fun d => (⟨d, c, .begun⟩ : WTask)).map WTask.cost).sum = 2 * ds.length
  | [] => rfl
  | d :: ds => by
    have := begun_cost c ds
    simp only [List.map_cons, List.sum_cons, List.length_cons]
    rw [this]
    simp only [WTask.cost]
    omega

theorem unseen_lt {l n : List Nat} {v : Nat} (hl : v ∈ l) (hn : v ∉ n) :
    (l.filter fun w => decide (w ∉ v :: n)).length + 1 ≤ (l.filter fun w => decide (w ∉ n)).length := by
  have h : (l.filter fun w => decide (w ∉ v :: n)) = (l.filter fun w => decide (w ∉ n)).filter fun w => decide (w ≠ v) := by
    rw [List.filter_filter]
    congr 1
    funext w
    by_cases h1 : w = v <;> by_cases h2 : w ∈ n <;> simp [h1, h2]
  rw [h]
  exact List.length_filter_lt_length_iff_exists.2 ⟨v, List.mem_filter.2 ⟨hl, by simpa using hn⟩, by simp⟩

/-- All requests are for nodes of the cluster. -/
theorem nodes_in {E : Env} {q : Datum} {C : Cluster} {anon : Bool} {config : SearchConfig} {i N : Nat} (hN : i < N)
    (hnext : ∀ v, ∀ w ∈ C.next v, w < N) {s : WState} (h : WReach E q C anon config i s) : ∀ t ∈ s.tasks, t.node < N := by
  induction h with
  | start => intro t ht; simp only [WState.start, List.mem_singleton] at ht; rw [ht]; exact hN
  | step _ hs ih =>
    have hset : ∀ (l : List WTask) (j : Nat) (t t' : WTask), l[j]? = some t → t'.node = t.node → (∀ t ∈ l, t.node < N) →
        ∀ x ∈ l.set j t', x.node < N := by
      intro l j t t' h1 h2 h3 x hx
      rcases List.mem_or_eq_of_mem_set hx with hx | rfl
      · exact h3 x hx
      · rw [h2]; exact h3 t (List.mem_of_getElem? h1)
    cases hs with
    | refuse j t h1 h2 h3 => exact hset _ j t _ h1 rfl ih
    | fail j t notes h1 h2 h3 => exact hset _ j t _ h1 rfl ih
    | reply j t site own kids as got found sent h1 => exact hset _ j t _ h1 rfl ih
    | serve j t site dt' own dsts timeout h1 h2 h3 h4 h5 h6 =>
      intro x hx
      rcases List.mem_append.1 hx with hx | hx
      · exact hset _ j t { t with phase := .asked site own _ } h1 rfl ih x hx
      · obtain ⟨d, hd, rfl⟩ := List.mem_map.1 hx
        obtain ⟨o, ho, rfl⟩ := h6
        exact hnext _ d (ho.mem_iff.1 (List.mem_of_mem_take hd))

theorem first_le {anon : Bool} {s : WState} {j : Nat} {t t' : WTask} {new : List WTask} {noted : List Nat} (h : s.tasks[j]? = some t)
    (h' : t'.phase ≠ .begun) : WState.first anon ⟨s.tasks.set j t' ++ new, noted⟩ ≤ s.first anon ∧
    (anon = true → j = 0 → t.phase = .begun → WState.first anon ⟨s.tasks.set j t' ++ new, noted⟩ + 12 ≤ s.first anon) := by
  have hlt := (List.getElem?_eq_some_iff.1 h).1
  have h0 : (s.tasks.set j t' ++ new)[0]? = if j = 0 then some t' else s.tasks[0]? := by
    rw [List.getElem?_append_left (by simp; omega)]
    by_cases hj : j = 0
    · subst hj; rw [List.getElem?_set_self hlt, if_pos rfl]
    · rw [List.getElem?_set_ne hj, if_neg hj]
  unfold WState.first
  rw [h0]
  by_cases hj : j = 0
  · subst hj
    rw [if_pos rfl, h]
    obtain ⟨nd, c, ph⟩ := t
    obtain ⟨nd', c', ph'⟩ := t'
    cases ph' with
    | begun => exact absurd rfl h'
    | asked => cases ph <;> cases anon <;> simp
    | over => cases ph <;> cases anon <;> simp
  · rw [if_neg hj]
    exact ⟨Nat.le_refl _, fun _ h => absurd h hj⟩

theorem cost_step {E : Env} {q : Datum} {C : Cluster} {anon : Bool} {N : Nat} {s s' : WState} (hn : ∀ t ∈ s.tasks, t.node < N)
    (h : WStep E q C anon s s') : s'.cost N anon + 1 ≤ s.cost N anon := by
  cases h with
  | refuse j t h1 h2 h3 =>
    have hc := cost_set s.tasks j t { t with phase := .over [] [] [] [] } h1
    have hf := first_le (anon := anon) (noted := s.noted) (t' := { t with phase := .over [] [] [] [] }) (new := []) h1 (by simp)
    rw [List.append_nil] at hf
    have hf := hf.1
    have : t.cost = 2 := by simp only [WTask.cost, h2]
    have h0 : WTask.cost { t with phase := .over [] [] [] [] } = 0 := rfl
    unfold WState.cost
    simp only [WState.unseen] at *
    omega
  | fail j t notes h1 h2 h3 =>
    have hu : ((List.range N).filter fun v => decide (v ∉ (if notes then t.node :: s.noted else s.noted))).length ≤
        ((List.range N).filter fun v => decide (v ∉ s.noted)).length := by
      cases notes with
      | false => exact Nat.le_refl _
      | true =>
        by_cases hm : t.node ∈ s.noted
        · have : (fun v => decide (v ∉ t.node :: s.noted)) = fun v => decide (v ∉ s.noted) := by
            funext v
            by_cases h1 : v = t.node
            · simp [h1, hm]
            · simp [h1]
          simp only [if_true]
          rw [this]
        · have := unseen_lt (List.mem_range.2 (hn t (List.mem_of_getElem? h1))) hm
          simp only [if_true]
          omega
    have hc := cost_set s.tasks j t { t with phase := .over [] [] [] [] } h1
    have hf := first_le (anon := anon) (noted := if notes then t.node :: s.noted else s.noted) (t' := { t with phase := .over [] [] [] [] }) (new := []) h1 (by simp)
    rw [List.append_nil] at hf
    have hf := hf.1
    have : t.cost = 2 := by simp only [WTask.cost, h2]
    have h0 : WTask.cost { t with phase := .over [] [] [] [] } = 0 := rfl
    unfold WState.cost
    simp only [WState.unseen] at *
    omega
  | reply j t site own kids as got found sent h1 h2 h3 h4 h5 h6 =>
    have hc := cost_set s.tasks j t { t with phase := .over kids ((t.node, site) :: as.flatMap (·.parts)) found sent } h1
    have hf := first_le (anon := anon) (noted := s.noted) (t' := { t with phase := .over kids ((t.node, site) :: as.flatMap (·.parts)) found sent })
      (new := []) h1 (by simp)
    rw [List.append_nil] at hf
    have hf := hf.1
    have : t.cost = 1 := by simp only [WTask.cost, h2]
    have h0 : WTask.cost { t with phase := .over kids ((t.node, site) :: as.flatMap (·.parts)) found sent } = 0 := rfl
    unfold WState.cost
    simp only [WState.unseen] at *
    omega
  | serve j t site dt' own dsts timeout h1 h2 h3 h4 h5 h6 =>
    have hc := cost_set s.tasks j t { t with phase := .asked site own (List.range' s.tasks.length dsts.length) } h1
    have hf := first_le (anon := anon) (noted := if anon ∧ j = 0 then s.noted else t.node :: s.noted)
      (t' := { t with phase := .asked site own (List.range' s.tasks.length dsts.length) })
      (new := dsts.map (fun d => ⟨d, { t.config with timeout := timeout }, .begun⟩)) h1 (by simp)
    have : t.cost = 2 := by simp only [WTask.cost, h2]
    have h0 : WTask.cost { t with phase := .asked site own (List.range' s.tasks.length dsts.length) } = 1 := rfl
    have hnew := begun_cost { t.config with timeout := timeout } dsts
    have h6' : dsts.length ≤ 6 := by
      obtain ⟨o, -, rfl⟩ := h6
      rw [List.length_take]; omega
    unfold WState.cost
    simp only [List.map_append, List.sum_append]
    rw [hnew]
    simp only [WState.unseen] at *
    by_cases ha : anon = true ∧ j = 0
    · have hf := hf.2 ha.1 ha.2 h2
      simp only [if_pos ha] at hf ⊢
      omega
    · have hf := hf.1
      have hu := unseen_lt (List.mem_range.2 (hn t (List.mem_of_getElem? h1))) h3
      simp only [if_neg ha] at hf ⊢
      omega

/-- What is handed on consists of data with keys. -/
def WTask.Keyed (t : WTask) : Prop :=
  match t.phase with
  | .begun => True
  | .asked _ own _ => Ref.Keyed own
  | .over _ _ f o => Ref.Keyed f ∧ Ref.Keyed o

theorem keyed_flat_ok {E : Env} (hE : E.Ok) {config : SearchConfig} (hl : 0 < config.limit) (hr : config.resultLimit.toNat < 2^63)
    {got : List ScoredDatum} (hk : Ref.Keyed got) : ∃ out, flatMerge E config none got = .ok out ∧ Ref.Keyed out := by
  have hp : flatMerge E config none got ≠ .panic := by
    unfold flatMerge
    exact C73_merge_returns_partial E hE config got hk (by intro h; rw [h] at hl; exact absurd hl (by decide)) hr
  obtain ⟨a, h1, _, _, h4, _⟩ := insertAll_ok hE.sort got (newFlat config none) hl rfl hk (by simp [newFlat]) (by simp [newFlat])
  have h5 : flatMerge E config none got = a.result := by unfold flatMerge; rw [h1, Res.bind_ok]
  rw [result_eq] at h5
  have : ∃ out, flatMerge E config none got = .ok out := by
    split at h5
    · exact ⟨_, h5⟩
    · split at h5
      · exact absurd h5 hp
      · exact ⟨_, h5⟩
  obtain ⟨out, ho⟩ := this
  exact ⟨out, ho, fun x hx => hk x ((flatMerge_sub hE hl hk ho).1 x hx)⟩

theorem keyed_multi_ok {E : Env} (hE : E.Ok) {config : SearchConfig} (hl : 0 < config.limit) (hr : config.resultLimit.toNat < 2^63)
    (hg : config.groupLimit = 0) {found : List ScoredDatum} (hk : Ref.Keyed found) : ∃ out, MultiOut E config none [found] out := by
  obtain ⟨got, hgot⟩ := collects_exists [found]
  have hkg : Ref.Keyed got := fun x hx => hk x ((collects_one hgot).mem_iff.1 hx)
  obtain ⟨out, h1, -⟩ := keyed_flat_ok hE hl hr hkg
  exact ⟨out, got, id, hgot, fun m => .refl m, by rw [multiMerge, if_neg (by rw [hg]; decide)]; exact h1⟩

theorem multi_keyed {E : Env} (hE : E.Ok) {config : SearchConfig} (hl : 0 < config.limit)
    (hg : config.groupLimit = 0) {found out : List ScoredDatum} (hk : Ref.Keyed found) (h : MultiOut E config none [found] out) : Ref.Keyed out := by
  obtain ⟨got, order, h1, -, h2⟩ := h
  have hkg : Ref.Keyed got := fun x hx => hk x ((collects_one h1).mem_iff.1 hx)
  rw [multiMerge, if_neg (by rw [hg]; decide)] at h2
  exact fun x hx => hkg x ((flatMerge_sub hE hl hkg h2).1 x hx)

theorem keyed_own_ok {E : Env} (hE : E.Ok) {config : SearchConfig} (hl : 0 < config.limit) (hname : Vec.isAnnoyName config.scoreFuncName = false)
    {site : Site} (hok : site.Ok) (q : DatumKey) (qv : Option DatumValue) :
    ∃ dt' own, streamSearch E site.vs site.answer site.dt ⟨some q, qv⟩ (some config) = .ok (dt', own) ∧ Ref.Keyed own := by
  obtain ⟨dt', c, cands, h1, -, h3, -, -, h6⟩ := C72_nan_partial E hE site.dt site.vs site.clock q qv config hok.wf hok.range hok.clock hl
  refine ⟨dt', c.list, ?_, ?_⟩
  · unfold streamSearch
    simp only [Option.getD_some, hname, Bool.false_eq_true, if_false]
    rw [h1]
    rfl
  · intro x hx
    obtain ⟨k, v, h, -⟩ := (h3 x).1 (h6 x hx)
    exact ⟨k, some v, h⟩

theorem keyed_reach {E : Env} (hE : E.Ok) {q : DatumKey} {qv : Option DatumValue} {C : Cluster} {anon : Bool} {config : SearchConfig} {i : Nat}
    (hl : 0 < config.limit) (hr : config.resultLimit.toNat < 2^63) (hg : config.groupLimit = 0)
    (hname : Vec.isAnnoyName config.scoreFuncName = false) (hok : ∀ v site, C.holds v site → site.Ok) {s : WState}
    (h : WReach E ⟨some q, qv⟩ C anon config i s) : ∀ t ∈ s.tasks, t.Keyed := by
  induction h with
  | start => intro t ht; simp only [WState.start, List.mem_singleton] at ht; rw [ht]; trivial
  | @step s s' hreach hs ih =>
    have hi := winv_reach hr hreach
    have hset : ∀ (l : List WTask) (j : Nat) (t' : WTask), t'.Keyed → (∀ t ∈ l, t.Keyed) → ∀ x ∈ l.set j t', x.Keyed := by
      intro l j t' h2 h3 x hx
      rcases List.mem_or_eq_of_mem_set hx with hx | rfl
      · exact h3 x hx
      · exact h2
    have hnil : Ref.Keyed [] := by intro x hx; cases hx
    cases hs with
    | refuse j t h1 h2 h3 => exact hset _ j _ ⟨hnil, hnil⟩ ih
    | fail j t notes h1 h2 h3 => exact hset _ j _ ⟨hnil, hnil⟩ ih
    | reply j t site own kids as got found sent h1 h2 h3 h4 h5 h6 =>
      have htm := List.mem_of_getElem? h1
      obtain ⟨tm, hc⟩ := hi.conf t htm
      have hkg : Ref.Keyed got := by
        intro x hx
        have := (collects_perm h4).mem_iff.2 hx
        rw [List.flatten_cons, List.mem_append] at this
        rcases this with h | h
        · have hk := ih t htm
          unfold WTask.Keyed at hk
          rw [h2] at hk
          exact hk x h
        · obtain ⟨l, hl', hx'⟩ := List.mem_flatten.1 h
          obtain ⟨a, ha, rfl⟩ := List.mem_map.1 hl'
          have : some a ∈ kids.map s.ans := by rw [← h3]; exact List.mem_map_of_mem ha
          obtain ⟨k, -, he⟩ := List.mem_map.1 this
          unfold WState.ans at he
          split at he
          · rename_i nd c ks ps f o hy
            cases he
            exact (ih _ (List.mem_of_getElem? hy)).2 x hx'
          · cases he
      have hkf : Ref.Keyed found := fun x hx => hkg x ((flatMerge_sub hE (by rw [hc]; exact hl) hkg h5).1 x hx)
      exact hset _ j _ ⟨hkf, multi_keyed hE (by rw [hc]; exact hl) (by rw [hc]; exact hg) hkf h6⟩ ih
    | serve j t site dt' own dsts timeout h1 h2 h3 h4 h5 h6 =>
      intro x hx
      rcases List.mem_append.1 hx with hx | hx
      · refine hset _ j _ ?_ ih x hx
        obtain ⟨tm, hc⟩ := hi.conf t (List.mem_of_getElem? h1)
        obtain ⟨d, o, g1, g2⟩ := keyed_own_ok hE (config := t.config) (by rw [hc]; exact hl) (by rw [hc]; exact hname) (hok _ _ h4) q qv
        rw [g1] at h5
        simp only [Res.ok.injEq, Prod.mk.injEq] at h5
        rw [h5.2] at g2
        exact g2
      · obtain ⟨d, hd, rfl⟩ := List.mem_map.1 hx
        trivial

/-- A last element with a property. -/
theorem last_with {P : Nat → Prop} : ∀ (n : Nat), (∃ k, k < n ∧ P k) → ∃ k, k < n ∧ P k ∧ ∀ m, k < m → m < n → ¬ P m
  | 0, ⟨_, h, _⟩ => absurd h (by omega)
  | n + 1, ⟨k, h, hp⟩ => by
    by_cases hn : P n
    · exact ⟨n, by omega, hn, fun m h1 h2 => by omega⟩
    · have : k ≠ n := fun e => hn (e ▸ hp)
      obtain ⟨k', h1, h2, h3⟩ := last_with n ⟨k, by omega, hp⟩
      refine ⟨k', by omega, h2, fun m h4 h5 => ?_⟩
      by_cases e : m = n
      · rw [e]; exact hn
      · exact h3 m h4 (by omega)

theorem answers {s : WState} : ∀ (ks : List Nat), (∀ k ∈ ks, ∃ a, s.ans k = some a) → ∃ as : List WAns, as.map some = ks.map s.ans
  | [], _ => ⟨[], rfl⟩
  | k :: ks, h => by
    obtain ⟨a, ha⟩ := h k (by simp)
    obtain ⟨as, has⟩ := answers ks fun k hk => h k (by simp [hk])
    exact ⟨a :: as, by simp [ha, has]⟩

end Clu

/-- **C188.**  A search of the whole cluster ends, without any time limit and however the sources are linked (in a ring, or to the node itself):
as long as the client has no answer some node can go on (nobody waits for a node that waits for it), and after at most `12 N + 14` steps, `N`
being the number of nodes, the client has its answer. -/
theorem C188_cluster_search_ends (E : Env) (hE : E.Ok) (C : Cluster) (anon : Bool) (config : SearchConfig) (i N : Nat)
    (q : DatumKey) (qv : Option DatumValue) (hN : i < N) (hnext : ∀ v, ∀ w ∈ C.next v, w < N)
    (hl : 0 < config.limit) (hr : config.resultLimit.toNat < 2^63) (hg : config.groupLimit = 0)
    (hname : ¬ "Annoy".toList <+: config.scoreFuncName.toList) (hok : ∀ v site, C.holds v site → site.Ok)
    (hdata : ∀ v, v < N → ¬ C.faulty v → ∃ site, C.holds v site) :
    (∀ n s, WRun E ⟨some q, qv⟩ C anon config i n s → n ≤ 12 * N + 14) ∧
    (∀ n s, WRun E ⟨some q, qv⟩ C anon config i n s →
      (∃ s', WStep E ⟨some q, qv⟩ C anon s s') ∨ ∃ a out, s.ans 0 = some a ∧ MultiOut E config none [a.found] out) := by
  have hn : Vec.isAnnoyName config.scoreFuncName = false := by
    cases h : Vec.isAnnoyName config.scoreFuncName with
    | false => rfl
    | true => exact absurd (List.isPrefixOf_iff_prefix.mp h) hname
  constructor
  · intro n s h
    have : n + s.cost N anon ≤ 12 * N + 14 := by
      induction h with
      | start =>
        have h1 : (WState.start config i).unseen N ≤ N := by
          unfold WState.unseen
          exact Nat.le_trans (List.length_filter_le _ _) (by simp)
        have h2 : (WState.start config i).first anon ≤ 12 := by
          unfold WState.first WState.start
          simp only [List.getElem?_cons_zero]
          split <;> omega
        have h3 : ((WState.start config i).tasks.map WTask.cost).sum = 2 := rfl
        unfold WState.cost
        omega
      | step h hs ih =>
        have := cost_step (nodes_in hN hnext h.reach) hs
        omega
    omega
  · intro n s h
    have hi := winv_reach hr h.reach
    have hkd := keyed_reach hE hl hr hg hn hok h.reach
    by_cases hopen : ∃ k, k < s.tasks.length ∧ s.ans k = none
    · left
      obtain ⟨k, hk, hp, hlast⟩ := last_with s.tasks.length hopen
      have hget : s.tasks[k]? = some s.tasks[k] := List.getElem?_eq_getElem hk
      generalize s.tasks[k] = t at hget
      have htm := List.mem_of_getElem? hget
      obtain ⟨tm, hc⟩ := hi.conf t htm
      cases hph : t.phase with
      | begun =>
        by_cases h1 : t.node ∈ s.noted
        · exact ⟨_, .refuse k t hget hph h1⟩
        · by_cases h2 : C.faulty t.node
          · exact ⟨_, .fail k t false hget hph h2⟩
          · obtain ⟨site, hs⟩ := hdata _ (nodes_in hN hnext h.reach t htm) h2
            obtain ⟨dt', own, h3, -⟩ := keyed_own_ok hE (config := t.config) (by rw [hc]; exact hl) (by rw [hc]; exact hn) (hok _ _ hs) q qv
            exact ⟨_, .serve k t site dt' own ((C.next t.node).take 6) 0 hget hph h1 hs h3 ⟨_, .refl _, rfl⟩⟩
      | asked site own kids =>
        obtain ⟨as, has⟩ := answers (s := s) kids fun m hm => by
          obtain ⟨h1, h2⟩ := hi.kid k t hget m (by rw [hph]; exact hm)
          cases ha : s.ans m with
          | none => exact absurd ha (hlast m h1 h2)
          | some a => exact ⟨a, rfl⟩
        obtain ⟨got, hgot⟩ := collects_exists (own :: as.map (·.sent))
        have hkg : Ref.Keyed got := by
          intro x hx
          have := (collects_perm hgot).mem_iff.2 hx
          rw [List.flatten_cons, List.mem_append] at this
          rcases this with h | h
          · have hk := hkd t htm
            unfold WTask.Keyed at hk
            rw [hph] at hk
            exact hk x h
          · obtain ⟨l, hl', hx'⟩ := List.mem_flatten.1 h
            obtain ⟨a, ha, rfl⟩ := List.mem_map.1 hl'
            have : some a ∈ kids.map s.ans := by rw [← has]; exact List.mem_map_of_mem ha
            obtain ⟨k, -, he⟩ := List.mem_map.1 this
            unfold WState.ans at he
            split at he
            · rename_i nd c ks ps f o hy
              cases he
              exact (hkd _ (List.mem_of_getElem? hy)).2 x hx'
            · cases he
        obtain ⟨found, hf, hkf⟩ := keyed_flat_ok hE (config := t.config) (by rw [hc]; exact hl) (by rw [hc]; exact hr) hkg
        obtain ⟨sent, hsent⟩ := keyed_multi_ok hE (config := t.config) (by rw [hc]; exact hl) (by rw [hc]; exact hr) (by rw [hc]; exact hg) hkf
        exact ⟨_, .reply k t site own kids as got found sent hget hph has hgot hf hsent⟩
      | over ks ps f o =>
        obtain ⟨nd, c, ph⟩ := t
        unfold WState.ans at hp
        rw [hget] at hp
        simp only at hph
        subst hph
        cases hp
    · right
      have h0 : 0 < s.tasks.length := by
        obtain ⟨t, h1, -⟩ := hi.root
        exact (List.getElem?_eq_some_iff.1 h1).1
      cases ha : s.ans 0 with
      | none => exact absurd ⟨0, h0, ha⟩ hopen
      | some a =>
        obtain ⟨t, h1, -, h3⟩ := hi.root
        have hk := hkd t (List.mem_of_getElem? h1)
        obtain ⟨nd, c, ph⟩ := t
        unfold WState.ans at ha
        rw [h1] at ha
        cases ph with
        | begun => cases ha
        | asked => cases ha
        | over ks ps f o =>
          cases ha
          obtain ⟨out, ho⟩ := keyed_multi_ok hE hl hr hg hk.1
          exact ⟨_, out, rfl, ho⟩

/-- C188: so there are executions up to the answer. -/
theorem C188_answer (E : Env) (hE : E.Ok) (C : Cluster) (anon : Bool) (config : SearchConfig) (i N : Nat)
    (q : DatumKey) (qv : Option DatumValue) (hN : i < N) (hnext : ∀ v, ∀ w ∈ C.next v, w < N)
    (hl : 0 < config.limit) (hr : config.resultLimit.toNat < 2^63) (hg : config.groupLimit = 0)
    (hname : ¬ "Annoy".toList <+: config.scoreFuncName.toList) (hok : ∀ v site, C.holds v site → site.Ok)
    (hdata : ∀ v, v < N → ¬ C.faulty v → ∃ site, C.holds v site) :
    ∃ s a out, WReach E ⟨some q, qv⟩ C anon config i s ∧ s.ans 0 = some a ∧ MultiOut E config none [a.found] out := by
  obtain ⟨h1, h2⟩ := C188_cluster_search_ends E hE C anon config i N q qv hN hnext hl hr hg hname hok hdata
  have : ∀ (m n : Nat) (s : WState), WRun E ⟨some q, qv⟩ C anon config i n s → 12 * N + 14 - n = m →
      ∃ s a out, WReach E ⟨some q, qv⟩ C anon config i s ∧ s.ans 0 = some a ∧ MultiOut E config none [a.found] out := by
    intro m
    induction m with
    | zero =>
      intro n s h e
      rcases h2 n s h with ⟨s', hs⟩ | ⟨a, out, ha, ho⟩
      · have := h1 _ _ (.step h hs); omega
      · exact ⟨s, a, out, h.reach, ha, ho⟩
    | succ m ih =>
      intro n s h e
      rcases h2 n s h with ⟨s', hs⟩ | ⟨a, out, ha, ho⟩
      · exact ih (n + 1) s' (.step h hs) (by omega)
      · exact ⟨s, a, out, h.reach, ha, ho⟩
  exact this _ 0 _ .start rfl

namespace Clu

/-- Three nodes, each the source of the next: the second has the point 1, the third the point 2. -/
def exRing : Cluster where
  next v := if v = 0 then [1] else if v = 1 then [2] else if v = 2 then [0] else []
  holds v site := v = 0 ∧ site = exSite [] ∨ v = 1 ∧ site = exSite [0x3F800000] ∨ v = 2 ∧ site = exSite [0x40000000]
  faulty _ := False

theorem exRing_ok : ∀ v site, exRing.holds v site → site.Ok := by
  rintro v site (⟨-, rfl⟩ | ⟨-, rfl⟩ | ⟨-, rfl⟩) <;> exact exSite_ok _ (by decide)

theorem exRing_next : ∀ v, ∀ w ∈ exRing.next v, w < 3 := by
  intro v w hw
  simp only [exRing] at hw
  split at hw
  · simp at hw; omega
  · split at hw
    · simp at hw; omega
    · split at hw
      · simp at hw; omega
      · cases hw

theorem exRing_data : ∀ v, v < 3 → ¬ exRing.faulty v → ∃ site, exRing.holds v site := by
  intro v hv _
  match v, hv with
  | 0, _ => exact ⟨_, Or.inl ⟨rfl, rfl⟩⟩
  | 1, _ => exact ⟨_, Or.inr (Or.inl ⟨rfl, rfl⟩)⟩
  | 2, _ => exact ⟨_, Or.inr (Or.inr ⟨rfl, rfl⟩)⟩

end Clu

/-- C187 and C188 at work: a client asks the first of three nodes in a ring, which has nothing; it gets the points of the other two. -/
theorem C187_example : ∃ s a out, WReach exEnv ⟨some (exPoint 0), none⟩ exRing false exBoth 0 s ∧ s.ans 0 = some a ∧
    MultiOut exEnv exBoth none [a.found] out ∧
    (∃ y ∈ out, y.datum.key = some (exPoint 0x3F800000)) ∧ (∃ y ∈ out, y.datum.key = some (exPoint 0x40000000)) := by
  obtain ⟨s, a, out, h1, h2, h3⟩ := C188_answer exEnv exEnv_ok exRing false exBoth 0 3 (exPoint 0) none (by decide) exRing_next (by decide)
    (by decide) rfl (by decide) exRing_ok exRing_data
  have hit : ∀ (xs : List F32), xs.Nodup → ∀ x, Ref.IsHit exEnv exBoth (exPoint 0) (Ref.shows (abs (exSite xs).dt.dbMap) (exSite xs).clock) x ↔
      ∃ y ∈ xs, x = exFound ((Vec.getVectorComparisonFunction exBoth.scoreFuncName).eval exEnv.o [y] [0]) y := by
    intro xs hxs x
    have := exHits (config := exBoth) rfl rfl (xss := [xs]) (by simpa using hxs) x
    simpa [Ref.IsHitIn, shelves] using this
  have hn1 : [(0x3F800000 : F32)].Nodup := by decide
  have hn2 : [(0x40000000 : F32)].Nodup := by decide
  obtain ⟨r, -, -⟩ := C187_whole_cluster exEnv exEnv_ok exRing false exBoth none 0 (exPoint 0) none s a out
    (by intro v; simp only [exRing]; split <;> (try split) <;> (try split) <;> simp)
    (by simp [exRing]) (by decide) (by decide) rfl (by decide) exRing_ok [some (exPoint 0x3F800000), some (exPoint 0x40000000)] (by decide)
    (by
      rintro v site (⟨-, rfl⟩ | ⟨-, rfl⟩ | ⟨-, rfl⟩) x hx
      · obtain ⟨y, hy, -⟩ := (hit [] (by decide) x).1 hx
        cases hy
      · obtain ⟨y, hy, rfl⟩ := (hit _ hn1 x).1 hx
        rw [List.mem_singleton.1 hy]; simp [exFound]
      · obtain ⟨y, hy, rfl⟩ := (hit _ hn2 x).1 hx
        rw [List.mem_singleton.1 hy]; simp [exFound]) h1 h2 h3
  refine ⟨s, a, out, h1, h2, h3, ?_, ?_⟩
  · exact r 1 (.step .refl (by simp [exRing]) (by simp [exRing])) (exFound _ 0x3F800000) (by
      rintro site (⟨h, -⟩ | ⟨-, rfl⟩ | ⟨h, -⟩)
      · omega
      · exact (hit _ hn1 _).2 ⟨_, List.mem_cons_self, rfl⟩
      · omega)
  · exact r 2 (.step (.step .refl (k := 1) (by simp [exRing]) (by simp [exRing])) (by simp [exRing]) (by simp [exRing])) (exFound _ 0x40000000) (by
      rintro site (⟨h, -⟩ | ⟨h, -⟩ | ⟨-, rfl⟩)
      · omega
      · omega
      · exact (hit _ hn2 _).2 ⟨_, List.mem_cons_self, rfl⟩)

end Veri
