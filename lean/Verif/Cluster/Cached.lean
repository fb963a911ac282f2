import Verif.Cluster.ManyCut
import Verif.Search.Cache
/-
C201: searches of the whole cluster, at the same time and with time limits (C198), whose nodes keep answers in their caches and answer from them.
-/
set_option autoImplicit false
namespace Veri
namespace Clu
open Search Agg Ref Store Json QCache

/-- The searches, and all that nodes have put into their caches: the node, the key (data/search.go:151-158) and the answer. -/
structure KState where
  m : MState
  kept : List (Nat × Bytes × List ScoredDatum)

/-- The steps of all searches (`MLStep`), with the caches.  How long an answer is kept is not limited here (C36). -/
inductive KStep (E : Env) (J : JsonStr) (Q : String → Query) (C : Cluster) : KState → KState → Prop
  | search {s : KState} {m : MState} : MLStep E Q C s.m m → KStep E J Q C s { s with m := m }
  /-- data/search.go:235-239: a node puts what it has found into its cache, the time limit reached or not (C75).  The timeout `tm` in the key is the
  one found on line 164, which other searches of the request may have lowered (C35). -/
  | keep {s : KState} (u : String) (j : Nat) (t : WTask) (ks : List Nat) (ps : List (Nat × Site)) (f o : List ScoredDatum) (tm : UInt64)
      (k : Bytes) : (s.m.tasks u)[j]? = some t → t.phase = .over ks ps f o → 0 < t.config.cacheDuration →
      getSearchKey J (Q u).datum { t.config with timeout := tm } = some k →
      KStep E J Q C s { s with kept := (t.node, k, f) :: s.kept }
  /-- data/search.go:169-183: a node that has not seen the query answers from its cache; it searches nothing and asks nobody.  `late` is what its second
  loop (data/search.go:275-293) takes of it before the time is up. -/
  | hit {s : KState} (u : String) (j : Nat) (t : WTask) (tm : UInt64) (k : Bytes) (f late sent : List ScoredDatum) :
      (s.m.tasks u)[j]? = some t → t.phase = .begun → (t.node, u) ∉ s.m.cache → 0 < t.config.cacheDuration →
      getSearchKey J (Q u).datum { t.config with timeout := tm } = some k → (t.node, k, f) ∈ s.kept →
      (∀ x ∈ late, x ∈ f) → flatMerge E t.config none late = .ok sent →
      KStep E J Q C s ⟨⟨s.m.put u ((s.m.tasks u).set j { t with phase := .over [] [] f sent }),
        if (Q u).anon ∧ j = 0 then s.m.cache else (t.node, u) :: s.m.cache⟩, s.kept⟩

inductive KReach (E : Env) (J : JsonStr) (Q : String → Query) (C : Cluster) : KState → Prop
  | start : KReach E J Q C ⟨⟨fun _ => [], []⟩, []⟩
  | step {s s' : KState} : KReach E J Q C s → KStep E J Q C s s' → KReach E J Q C s'

/-- What a node has comes from the nodes connected with it. -/
structure DInv (E : Env) (q : DatumKey) (C : Cluster) (config : SearchConfig) (i : Nat) (ts : List WTask) : Prop where
  node : ∀ t ∈ ts, Linked C.next i t.node
  conf : ∀ t ∈ ts, ∃ tm, t.config = { config with timeout := tm }
  kids : ∀ t ∈ ts, ∀ site own ks, t.phase = .asked site own ks → ∀ k ∈ ks, ∃ t', ts[k]? = some t' ∧ t'.node ∈ C.next t.node
  asked : ∀ t ∈ ts, ∀ site own ks, t.phase = .asked site own ks → ∀ x ∈ own, CHit E config q C t.node x
  over : ∀ t ∈ ts, ∀ ks ps f o, t.phase = .over ks ps f o → (∀ x ∈ f, CHit E config q C t.node x) ∧ ∀ x ∈ o, CHit E config q C t.node x

theorem linked_trans {next : Nat → List Nat} {a b c : Nat} (h1 : Linked next a b) (h2 : Linked next b c) : Linked next a c := by
  induction h2 with
  | refl => exact h1
  | step _ h ih => exact .step ih h

theorem chit_up {E : Env} {config : SearchConfig} {q : DatumKey} {C : Cluster} {i j : Nat} {x : ScoredDatum} (h : Linked C.next i j)
    (hx : CHit E config q C j x) : CHit E config q C i x := by
  obtain ⟨v, site, h1, h2⟩ := hx
  exact ⟨v, site, linked_trans h h1, h2⟩

theorem DInv.set {E : Env} {q : DatumKey} {C : Cluster} {config : SearchConfig} {i : Nat} {ts : List WTask} (hi : DInv E q C config i ts) {j : Nat}
    {t : WTask} (h : ts[j]? = some t) (ph : WPhase) (new : List WTask)
    (hn : ∀ x ∈ new, x.node ∈ C.next t.node ∧ (∃ tm, x.config = { config with timeout := tm }) ∧ x.phase = .begun)
    (hk : ∀ site own ks, ph = .asked site own ks → ks = List.range' ts.length new.length)
    (ha : ∀ site own ks, ph = .asked site own ks → ∀ x ∈ own, CHit E config q C t.node x)
    (ho : ∀ ks ps f o, ph = .over ks ps f o → (∀ x ∈ f, CHit E config q C t.node x) ∧ ∀ x ∈ o, CHit E config q C t.node x) :
    DInv E q C config i (ts.set j { t with phase := ph } ++ new) := by
  have htm := List.mem_of_getElem? h
  have hm : ∀ x ∈ ts.set j { t with phase := ph } ++ new, x ∈ ts ∨ x = { t with phase := ph } ∨ x ∈ new := by
    intro x hx
    rcases List.mem_append.1 hx with hx | hx
    · exact (List.mem_or_eq_of_mem_set hx).imp id Or.inl
    · exact Or.inr (Or.inr hx)
  have hold : ∀ (k : Nat) (t' : WTask), ts[k]? = some t' → ∃ t'', (ts.set j { t with phase := ph } ++ new)[k]? = some t'' ∧ t''.node = t'.node := by
    intro k t' hk
    have hlt := (List.getElem?_eq_some_iff.1 hk).1
    rw [List.getElem?_append_left (by rw [List.length_set]; exact hlt), List.getElem?_set]
    by_cases e : j = k
    · subst e
      rw [if_pos rfl, if_pos hlt]
      rw [h] at hk
      cases hk
      exact ⟨_, rfl, rfl⟩
    · rw [if_neg e]
      exact ⟨t', hk, rfl⟩
  refine ⟨?_, ?_, ?_, ?_, ?_⟩
  · intro x hx
    rcases hm x hx with hx | rfl | hx
    · exact hi.node x hx
    · exact hi.node t htm
    · exact .step (hi.node t htm) (hn x hx).1
  · intro x hx
    rcases hm x hx with hx | rfl | hx
    · exact hi.conf x hx
    · exact hi.conf t htm
    · exact (hn x hx).2.1
  · intro x hx site own ks he k hkk
    rcases hm x hx with hx | rfl | hx
    · obtain ⟨t', h1, h2⟩ := hi.kids x hx site own ks he k hkk
      obtain ⟨t'', h3, h4⟩ := hold k t' h1
      exact ⟨t'', h3, h4 ▸ h2⟩
    · rw [hk site own ks he, List.mem_range'_1] at hkk
      have hlt : k - ts.length < new.length := by omega
      refine ⟨new[k - ts.length], ?_, (hn _ (List.getElem_mem hlt)).1⟩
      rw [List.getElem?_append_right (by rw [List.length_set]; omega), List.length_set, List.getElem?_eq_getElem hlt]
    · rw [(hn x hx).2.2] at he; cases he
  · intro x hx
    rcases hm x hx with hx | rfl | hx
    · exact hi.asked x hx
    · exact ha
    · intro site own ks he; rw [(hn x hx).2.2] at he; cases he
  · intro x hx
    rcases hm x hx with hx | rfl | hx
    · exact hi.over x hx
    · exact ho
    · intro ks ps f o he; rw [(hn x hx).2.2] at he; cases he

theorem dinv_ans {E : Env} {q : DatumKey} {C : Cluster} {config : SearchConfig} {i : Nat} {s : WState} (hi : DInv E q C config i s.tasks) {k : Nat}
    {a : WAns} (h : s.ans k = some a) {t : WTask} (ht : s.tasks[k]? = some t) :
    (∀ x ∈ a.found, CHit E config q C t.node x) ∧ ∀ x ∈ a.sent, CHit E config q C t.node x := by
  unfold WState.ans at h
  rw [ht] at h
  split at h
  · rename_i nd c ks ps f o hk
    cases h
    cases hk
    exact hi.over _ (List.mem_of_getElem? ht) ks ps f o rfl
  · cases h

theorem dinv_step {E : Env} (hE : E.Ok) {q : DatumKey} {qv : Option DatumValue} {C : Cluster} {anon : Bool} {config : SearchConfig} {i : Nat}
    (hl : 0 < config.limit) (hg : config.groupLimit = 0) (hname : Vec.isAnnoyName config.scoreFuncName = false)
    (hok : ∀ v site, C.holds v site → site.Ok) {s s' : WState} (hi : DInv E q C config i s.tasks) (h : LStep E ⟨some q, qv⟩ C anon s s') :
    DInv E q C config i s'.tasks := by
  have hmerge : ∀ t ∈ s.tasks, ∀ (i : Nat) (got found : List ScoredDatum), (∀ x ∈ got, CHit E config q C i x) →
      flatMerge E t.config none got = .ok found → ∀ x ∈ found, CHit E config q C i x := by
    intro t ht i got found h1 h2 x hx
    obtain ⟨tm, hc⟩ := hi.conf t ht
    exact h1 x ((flatMerge_sub hE (by rw [hc]; exact hl) (chit_keyed h1) h2).1 x hx)
  have hkid : ∀ t ∈ s.tasks, ∀ site own ks, t.phase = .asked site own ks → ∀ k ∈ ks, ∀ a, s.ans k = some a →
      ∀ x ∈ a.sent, CHit E config q C t.node x := by
    intro t ht site own ks he k hk a ha x hx
    obtain ⟨t', h1, h2⟩ := hi.kids t ht site own ks he k hk
    exact chit_up (.step .refl h2) ((dinv_ans hi ha h1).2 x hx)
  have hset : ∀ (j : Nat) (t : WTask), s.tasks[j]? = some t → ∀ (ks : List Nat) (ps : List (Nat × Site)) (f o : List ScoredDatum),
      (∀ x ∈ f, CHit E config q C t.node x) → (∀ x ∈ o, CHit E config q C t.node x) →
      DInv E q C config i (s.tasks.set j { t with phase := .over ks ps f o }) := by
    intro j t h1 ks ps f o hf ho
    have := hi.set h1 (.over ks ps f o) [] (by simp) (by simp) (by simp) (by
      intro ks ps f o he
      injection he with e1 e2 e3 e4
      subst e3 e4
      exact ⟨hf, ho⟩)
    rwa [List.append_nil] at this
  cases h with
  | cut j t site own kids got found late sent h1 h2 h3 h4 h5 h6 =>
    have htm := List.mem_of_getElem? h1
    have hgot : ∀ x ∈ got, CHit E config q C t.node x := by
      intro x hx
      rcases h3 x hx with h | ⟨k, hk, a, ha, hx⟩
      · exact hi.asked t htm site own kids h2 x h
      · exact hkid t htm site own kids h2 k hk a ha x hx
    have hf := hmerge t htm _ got found hgot h4
    exact hset j t h1 kids [] found sent hf (hmerge t htm _ late sent (fun x hx => hf x (h5 x hx)) h6)
  | whole h =>
    cases h with
    | refuse j t h1 h2 h3 => exact hset j t h1 [] [] [] [] (by simp) (by simp)
    | fail j t notes h1 h2 h3 => exact hset j t h1 [] [] [] [] (by simp) (by simp)
    | reply j t site own kids as got found sent h1 h2 h3 h4 h5 h6 =>
      have htm := List.mem_of_getElem? h1
      obtain ⟨tm, hc⟩ := hi.conf t htm
      have hgot : ∀ x ∈ got, CHit E config q C t.node x := by
        intro x hx
        have := (collects_perm h4).mem_iff.2 hx
        rw [List.flatten_cons, List.mem_append] at this
        rcases this with h | h
        · exact hi.asked t htm site own kids h2 x h
        · obtain ⟨l, hl', hx'⟩ := List.mem_flatten.1 h
          obtain ⟨a, ha, rfl⟩ := List.mem_map.1 hl'
          have : some a ∈ kids.map s.ans := by rw [← h3]; exact List.mem_map_of_mem ha
          obtain ⟨k, hk, he⟩ := List.mem_map.1 this
          exact hkid t htm site own kids h2 k hk a he x hx'
      have hf := hmerge t htm _ got found hgot h5
      refine hset j t h1 kids _ found sent hf ?_
      obtain ⟨got', order, g1, -, g2⟩ := h6
      rw [multiMerge, if_neg (by rw [hc]; show ¬ 0 < config.groupLimit; rw [hg]; decide)] at g2
      exact hmerge t htm _ got' sent (fun x hx => hf x ((collects_one g1).mem_iff.1 hx)) g2
    | serve j t site dt' own dsts timeout h1 h2 h3 h4 h5 h6 =>
      have htm := List.mem_of_getElem? h1
      obtain ⟨tm, hc⟩ := hi.conf t htm
      refine hi.set h1 (.asked site own _) _ ?_ ?_ ?_ (by simp)
      · intro x hx
        obtain ⟨d, hd, rfl⟩ := List.mem_map.1 hx
        obtain ⟨o, ho, rfl⟩ := h6
        exact ⟨ho.mem_iff.1 (List.mem_of_mem_take hd), ⟨timeout, by simp only [hc]⟩, rfl⟩
      · intro site' own' ks he
        injection he with e1 e2 e3
        rw [← e3, List.length_map]
      · intro site' own' ks he x hx
        injection he with e1 e2 e3
        subst e1 e2
        have hos := hok _ _ h4
        obtain ⟨d, c, cands, g1, -, g3, -, -, g6⟩ := C72_nan_partial E hE site.dt site.vs site.clock q qv t.config hos.wf hos.range hos.clock
          (by rw [hc]; exact hl)
        unfold streamSearch at h5
        simp only [Option.getD_some, show Vec.isAnnoyName t.config.scoreFuncName = false by rw [hc]; exact hname, Bool.false_eq_true, if_false] at h5
        rw [g1, Res.bind_ok] at h5
        injection h5 with h5
        injection h5 with _ h5
        subst h5
        have := (g3 x).1 (g6 x hx)
        rw [hc] at this
        exact ⟨t.node, site, .refl, h4, this⟩

/-- A request that the claims are about. -/
structure Plain (c : SearchConfig) : Prop where
  limit : 0 < c.limit
  flat : c.groupLimit = 0
  name : Vec.isAnnoyName c.scoreFuncName = false

/-- Equal keys of the caches: the same matches. -/
theorem same_hits {E : Env} {C : Cluster} {i : Nat} {c c' : SearchConfig} (h : SameButTimeout c c') {q : DatumKey} {x : ScoredDatum} :
    (Plain c → Plain c') ∧ (CHit E c q C i x → CHit E c' q C i x) := by
  unfold SameButTimeout at h
  cases c; cases c'
  simp only [SearchConfig.mk.injEq] at h
  obtain ⟨rfl, rfl, rfl, -, rfl, rfl, rfl, rfl, rfl, rfl, rfl, rfl, -⟩ := h
  exact ⟨fun h => ⟨h.limit, h.flat, h.name⟩, fun h => h⟩

/-- The configuration is passed on, but for the timeout. -/
def Confs (config : SearchConfig) (ts : List WTask) : Prop := ∀ t ∈ ts, ∃ tm, t.config = { config with timeout := tm }

theorem confs_set {config : SearchConfig} {ts : List WTask} (h : Confs config ts) {j : Nat} {t : WTask} (ht : ts[j]? = some t) (p : WPhase) :
    Confs config (ts.set j { t with phase := p }) := by
  intro x hx
  rcases List.mem_or_eq_of_mem_set hx with hx | rfl
  · exact h x hx
  · exact h t (List.mem_of_getElem? ht)

theorem confs_step {E : Env} {q : Datum} {C : Cluster} {anon : Bool} {config : SearchConfig} {s s' : WState} (hi : Confs config s.tasks)
    (h : LStep E q C anon s s') : Confs config s'.tasks := by
  cases h with
  | cut j t site own kids got found late sent h1 => exact confs_set hi h1 _
  | whole h =>
    cases h with
    | refuse j t h1 => exact confs_set hi h1 _
    | fail j t notes h1 => exact confs_set hi h1 _
    | reply j t site own kids as got found sent h1 => exact confs_set hi h1 _
    | serve j t site dt' own dsts timeout h1 =>
      intro x hx
      rcases List.mem_append.1 hx with hx | hx
      · exact confs_set hi h1 _ x hx
      · obtain ⟨d, -, rfl⟩ := List.mem_map.1 hx
        obtain ⟨tm, hc⟩ := hi t (List.mem_of_getElem? h1)
        exact ⟨timeout, by simp only [hc]⟩

theorem k_confs {E : Env} {J : JsonStr} {Q : String → Query} {C : Cluster} {s : KState} (h : KReach E J Q C s) (u : String) :
    Confs (Q u).config (s.m.tasks u) := by
  induction h with
  | start => intro t ht; cases ht
  | @step s s' _ h ih =>
    cases h with
    | @search m h =>
      obtain ⟨u', ho, hu⟩ := ml_step h
      by_cases e : u = u'
      · subst e
        rcases hu with hu | ⟨-, hu⟩
        · exact confs_step ih hu
        · have : m.tasks u = [⟨(Q u).node, (Q u).config, .begun⟩] := congrArg WState.tasks hu
          show Confs _ (m.tasks u)
          rw [this]
          intro t ht
          rw [List.mem_singleton.1 ht]
          exact ⟨_, rfl⟩
      · have : m.tasks u = s.m.tasks u := congrArg WState.tasks (ho u e)
        show Confs _ (m.tasks u)
        rw [this]
        exact ih
    | keep => exact ih
    | hit u' j t tm k f late sent h1 =>
      show Confs _ (s.m.put u' _ u)
      by_cases e : u = u'
      · subst e
        rw [put_self]
        exact confs_set ih h1 _
      · rw [put_other e]
        exact ih

structure KInv (E : Env) (J : JsonStr) (Q : String → Query) (C : Cluster) (s : KState) : Prop where
  tasks : ∀ u q qv, (Q u).datum = ⟨some q, qv⟩ → Plain (Q u).config → DInv E q C (Q u).config (Q u).node (s.m.tasks u)
  kept : ∀ v k f, (v, k, f) ∈ s.kept → ∀ d c q, getSearchKey J d c = some k → d.key = some q → Plain c → ∀ x ∈ f, CHit E c q C v x

theorem conf_same {config : SearchConfig} (tm tm' : UInt64) : SameButTimeout { { config with timeout := tm } with timeout := tm' } config := rfl

theorem k_inv {E : Env} (hE : E.Ok) {J : JsonStr} {Q : String → Query} {C : Cluster} (hok : ∀ v site, C.holds v site → site.Ok) {s : KState}
    (h : KReach E J Q C s) : KInv E J Q C s := by
  induction h with
  | start =>
    refine ⟨fun u q qv _ _ => ⟨?_, ?_, ?_, ?_, ?_⟩, fun v k f hf => by cases hf⟩ <;> intro t ht <;> cases ht
  | @step s s' hs h ih =>
    cases h with
    | @search m h =>
      refine ⟨fun u q qv hq hp => ?_, ih.kept⟩
      obtain ⟨u', ho, hu⟩ := ml_step h
      by_cases e : u = u'
      · subst e
        rcases hu with hu | ⟨-, hu⟩
        · rw [hq] at hu
          exact dinv_step hE hp.limit hp.flat hp.name hok (ih.tasks u q qv hq hp) hu
        · have : m.tasks u = [⟨(Q u).node, (Q u).config, .begun⟩] := congrArg WState.tasks hu
          show DInv E q C (Q u).config (Q u).node (m.tasks u)
          rw [this]
          refine ⟨?_, ?_, ?_, ?_, ?_⟩ <;> intro t ht <;> rw [List.mem_singleton.1 ht]
          · exact .refl
          · exact ⟨_, rfl⟩
          · intro site own ks he; cases he
          · intro site own ks he; cases he
          · intro ks ps f o he; cases he
      · have : m.tasks u = s.m.tasks u := congrArg WState.tasks (ho u e)
        show DInv E q C (Q u).config (Q u).node (m.tasks u)
        rw [this]
        exact ih.tasks u q qv hq hp
    | keep u j t ks ps f o tm k h1 h2 h3 h4 =>
      refine ⟨ih.tasks, fun v k' f' hf => ?_⟩
      rcases List.mem_cons.1 hf with hf | hf
      · simp only [Prod.mk.injEq] at hf
        obtain ⟨rfl, rfl, rfl⟩ := hf
        intro d c q hk hd hp x hx
        obtain ⟨g1, g2⟩ := searchKey_inj h4 hk
        obtain ⟨tm', hc⟩ := k_confs hs u t (List.mem_of_getElem? h1)
        have hsame : SameButTimeout (Q u).config c := by
          refine SameButTimeout.trans ?_ g2.weaken
          rw [hc]
          exact (conf_same tm' tm).symm
        have hq : (Q u).datum = ⟨some q, (Q u).datum.value⟩ := by
          rw [← hd, ← g1]
        have := ((ih.tasks u q _ hq ((same_hits (E := E) (C := C) (i := 0) (q := q) (x := x) hsame.symm).1 hp)).over t
          (List.mem_of_getElem? h1) ks ps _ o h2).1 x hx
        exact (same_hits hsame).2 this
      · exact ih.kept v k' f' hf
    | hit u j t tm k f late sent h1 h2 h3 h4 h5 h6 h7 h8 =>
      refine ⟨fun u' q qv hq hp => ?_, ih.kept⟩
      show DInv E q C (Q u').config (Q u').node (s.m.put u _ u')
      by_cases e : u' = u
      · subst e
        rw [put_self]
        have hd := ih.tasks u' q qv hq hp
        have htm := List.mem_of_getElem? h1
        obtain ⟨tm', hc⟩ := hd.conf t htm
        have hf : ∀ x ∈ f, CHit E (Q u').config q C t.node x := by
          intro x hx
          have := ih.kept _ _ _ h6 _ _ q h5 (by rw [hq]) ((same_hits (E := E) (C := C) (i := 0) (q := q) (x := x)
            (by rw [hc]; exact (conf_same tm' tm).symm)).1 hp) x hx
          exact (same_hits (by rw [hc]; exact conf_same tm' tm)).2 this
        have := hd.set h1 (.over [] [] f sent) [] (by simp) (by simp) (by simp) (by
          intro ks ps f' o he
          injection he with e1 e2 e3 e4
          subst e3 e4
          exact ⟨hf, fun x hx => by
            have hlate : ∀ x ∈ late, CHit E (Q u').config q C t.node x := fun x hx => hf x (h7 x hx)
            exact hlate x ((flatMerge_sub hE (by rw [hc]; exact hp.limit) (chit_keyed hlate) h8).1 x hx)⟩)
        rwa [List.append_nil] at this
      · rw [put_other e]
        exact ih.tasks u' q qv hq hp

/-- A search without caching: the caches play no part. -/
theorem k_off {E : Env} {J : JsonStr} {Q : String → Query} {C : Cluster} {s : KState} (h : KReach E J Q C s) {u : String}
    (h0 : (Q u).config.cacheDuration = 0) : (s.m.tasks u = [] ∧ ∀ v, (v, u) ∉ s.m.cache) ∨
      LReach E (Q u).datum C (Q u).anon (Q u).config (Q u).node (s.m.one u) := by
  induction h with
  | start => exact .inl ⟨rfl, fun v h => by cases h⟩
  | @step s s' hs h ih =>
    cases h with
    | @search m h =>
      obtain ⟨u', ho, hu⟩ := ml_step h
      show (m.tasks u = [] ∧ ∀ v, (v, u) ∉ m.cache) ∨ LReach _ _ _ _ _ _ (m.one u)
      by_cases e : u = u'
      · subst e
        rcases hu with hu | ⟨h1, h2⟩
        · rcases ih with ⟨g, -⟩ | ih
          · exact absurd g (l_begun hu)
          · exact .inr (.step ih hu)
        · rcases ih with ⟨-, g⟩ | ih
          · rw [h2]
            have : s.m.noted u = [] := by
              cases hn : s.m.noted u with
              | nil => rfl
              | cons v l => exact absurd (mem_noted.1 (show v ∈ s.m.noted u by rw [hn]; simp)) (g v)
            rw [this]
            exact .inr .start
          · obtain ⟨t, h3, -⟩ := l_root ih
            rw [show (s.m.one u).tasks = s.m.tasks u from rfl, h1] at h3
            cases h3
      · have h1 := ho u e
        have ht : m.tasks u = s.m.tasks u := congrArg WState.tasks h1
        have hn : m.noted u = s.m.noted u := congrArg WState.noted h1
        rw [h1, ht]
        refine ih.imp (fun h => ⟨h.1, fun v hv => h.2 v ?_⟩) id
        exact mem_noted.1 (hn ▸ mem_noted.2 hv)
    | keep => exact ih
    | hit u' j t tm k f late sent h1 h2 h3 h4 h5 h6 h7 h8 =>
      by_cases e : u = u'
      · subst e
        obtain ⟨tm', hc⟩ := k_confs hs u t (List.mem_of_getElem? h1)
        rw [hc] at h4
        exact absurd h4 (by show ¬ 0 < (Q u).config.cacheDuration; rw [h0]; decide)
      · have hone : MState.one ⟨s.m.put u' ((s.m.tasks u').set j { t with phase := .over [] [] f sent }),
            if (Q u').anon = true ∧ j = 0 then s.m.cache else (t.node, u') :: s.m.cache⟩ u = s.m.one u := by
          simp only [MState.one, put_other e]
          split
          · rfl
          · rw [noted_cons_other (Ne.symm e)]; rfl
        show (s.m.put u' _ u = [] ∧ _) ∨ LReach _ _ _ _ _ _ (MState.one _ u)
        rw [hone, put_other e]
        refine ih.imp (fun h => ⟨h.1, fun v hv => h.2 v ?_⟩) id
        simp only at hv
        split at hv
        · exact hv
        · rcases List.mem_cons.1 hv with hv | hv
          · cases hv; exact absurd rfl e
          · exact hv

end Clu
open Clu Search Store Agg Json QCache

/-- **C201.**  Whatever nodes keep in their caches and answer from them, for any number of searches at the same time and with any time limits: all that
a client gets are matches of its own request, with their scores, that have been stored and alive, at some time, at nodes which a chain of sources
connects with the one asked; no key twice, and no more than asked for. -/
theorem C201_genuine (E : Env) (hE : E.Ok) (J : JsonStr) (Q : String → Clu.Query) (C : Cluster) (s : KState) (hs : KReach E J Q C s) (u : String)
    (q : DatumKey) (qv : Option DatumValue) (out : List ScoredDatum) (hq : (Q u).datum = ⟨some q, qv⟩) (hl : 0 < (Q u).config.limit)
    (hg : (Q u).config.groupLimit = 0) (hname : ¬ "Annoy".toList <+: (Q u).config.scoreFuncName.toList)
    (hok : ∀ v site, C.holds v site → site.Ok) (ho : LAnswer E (Q u).config (s.m.one u) out) :
    (∀ y ∈ out, ∃ v site, Linked C.next (Q u).node v ∧ C.holds v site ∧
      Ref.IsHit E (Q u).config q (Ref.shows (Store.abs site.dt.dbMap) site.clock) y) ∧
    (out.map (·.datum.key)).Nodup ∧ out.length ≤ Ref.asked (Q u).config := by
  have hn : Vec.isAnnoyName (Q u).config.scoreFuncName = false := by
    cases h : Vec.isAnnoyName (Q u).config.scoreFuncName with
    | false => rfl
    | true => exact absurd (List.isPrefixOf_iff_prefix.mp h) hname
  have hi := (k_inv hE hok hs).tasks u q qv hq ⟨hl, hg, hn⟩
  obtain ⟨got, h1, h2⟩ := ho
  have hgot : ∀ x ∈ got, CHit E (Q u).config q C (Q u).node x := by
    intro x hx
    obtain ⟨a, ha, hx⟩ := h1 x hx
    cases ht : (s.m.one u).tasks[0]? with
    | none => unfold WState.ans at ha; rw [ht] at ha; cases ha
    | some t => exact chit_up (hi.node t (List.mem_of_getElem? ht)) ((dinv_ans (s := s.m.one u) hi ha ht).1 x hx)
  have hkd := chit_keyed hgot
  have hcons : Ref.Consistent got := by
    intro x hx y hy hk
    obtain ⟨v, site, -, -, h3⟩ := hgot x hx
    obtain ⟨w, site', -, -, h4⟩ := hgot y hy
    rw [hit_score h3 h4 hk]
    exact F64.lt_irrefl _
  obtain ⟨a, cands, g1, g2, -, -, -⟩ := C29_no_duplicates_partial E hE (Q u).config got hl hkd hcons
  have h2' := h2
  unfold flatMerge at h2'
  rw [g1, Res.bind_ok] at h2'
  obtain ⟨b1, b2, ⟨t, b3⟩, -⟩ := C31_result_bounded E hE (Q u).config none got a out g1 h2'
  refine ⟨fun y hy => hgot y ((flatMerge_sub hE hl hkd h2).1 y hy), ?_, ?_⟩
  · rw [← b3, List.map_append] at g2
    exact (List.nodup_append.1 g2).1
  · unfold Ref.asked
    split
    · exact b1
    · rename_i h
      have := b2 h
      omega

/-- C201: a search with a cache duration of zero goes as if there were no caches, whatever the others do. -/
theorem C201_off (E : Env) (J : JsonStr) (Q : String → Clu.Query) (C : Cluster) (s : KState) (hs : KReach E J Q C s) (u : String)
    (h0 : (Q u).config.cacheDuration = 0) (hb : s.m.tasks u ≠ []) :
    LReach E (Q u).datum C (Q u).anon (Q u).config (Q u).node (s.m.one u) := by
  rcases k_off hs h0 with ⟨h, -⟩ | h
  · exact absurd h hb
  · exact h

namespace Clu

/-- A search whose answers are kept for a minute. -/
def exKept : SearchConfig := { exBoth with cacheDuration := 60 }

/-- Two clients with the same request at the second node of the ring of C187. -/
def exAskKept (_ : String) : Clu.Query := ⟨⟨some (exPoint 0), none⟩, exKept, 1, false⟩

theorem k_go {E : Env} {J : JsonStr} {Q : String → Query} {C : Cluster} {s : KState} {u : String} {w : WState} (hs : KReach E J Q C s)
    (h : LReach E (Q u).datum C (Q u).anon (Q u).config (Q u).node w) (h0 : s.m.one u = .start (Q u).config (Q u).node) :
    ∃ m, KReach E J Q C { s with m := m } ∧ m.one u = w ∧ ∀ u', u' ≠ u → m.one u' = s.m.one u' := by
  induction h with
  | start => exact ⟨s.m, hs, h0, fun _ _ => rfl⟩
  | step _ h ih =>
    obtain ⟨m, i1, i2, i3⟩ := ih
    rw [← i2] at h
    obtain ⟨m', g1, g2, g3⟩ := ml_step_one h
    exact ⟨m', .step i1 (.search g1), g2, fun u' hu => (g3 u' hu).trans (i3 u' hu)⟩

end Clu

/-- C201 at work: the first client's time is up when the node has found its own point; the node keeps this answer, and the second client, which asks
for the same, gets it at once: no node searches for it. -/
theorem C201_example (J : JsonStr) : ∃ s sent, KReach exEnv J exAskKept exRing s ∧ LAnswer exEnv exKept (s.m.one "b") [exFound F64.one 0x3F800000] ∧
    s.m.tasks "b" = [⟨1, exKept, .over [] [] [exFound F64.one 0x3F800000] sent⟩] ∧
    ∃ site, exRing.holds 1 site ∧
      Ref.IsHit exEnv exKept (exPoint 0) (Ref.shows (Store.abs site.dt.dbMap) site.clock) (exFound F64.one 0x3F800000) := by
  obtain ⟨dt', ho⟩ := exOwn_some (E := exEnv) (config := exKept) (xs := [0x3F800000]) (l := [exFound F64.one 0x3F800000]) (by decide +kernel)
  have hm : flatMerge exEnv exKept none [exFound F64.one 0x3F800000] = .ok [exFound F64.one 0x3F800000] := outOf_some (by decide +kernel)
  have r1 := LReach.step (LReach.start (E := exEnv) (q := ⟨some (exPoint 0), none⟩) (C := exRing) (anon := false) (config := exKept) (i := 1))
    (.whole (.serve 0 ⟨1, exKept, .begun⟩ (exSite [0x3F800000]) dt' [exFound F64.one 0x3F800000] [2] 0 rfl rfl (by simp [WState.start])
      (.inr (.inl ⟨rfl, rfl⟩)) ho ⟨[2], .refl _, rfl⟩))
  have r2 := LReach.step r1 (.cut 0 _ _ _ _ [exFound F64.one 0x3F800000] [exFound F64.one 0x3F800000] [exFound F64.one 0x3F800000]
    [exFound F64.one 0x3F800000] rfl rfl (fun x hx => .inl hx) hm (fun x hx => hx) hm)
  have k1 := KReach.step (E := exEnv) (J := J) (Q := exAskKept) (C := exRing) .start (.search (.whole (.client "a" rfl)))
  obtain ⟨m, k2, k3, k4⟩ := k_go (u := "a") k1 r2 (by simp [MState.one, MState.put, MState.noted, exAskKept, WState.start])
  obtain ⟨k, hk⟩ : ∃ k, getSearchKey J (⟨some (exPoint 0), none⟩ : Datum) exKept = some k :=
    ⟨_, by unfold getSearchKey; rw [getKeyAsBytes_some]⟩
  have ht : m.tasks "a" = _ := congrArg WState.tasks k3
  have hb : m.one "b" = ⟨[], []⟩ := by
    rw [k4 "b" (by decide)]
    simp [MState.one, MState.put, MState.noted]
  have hbt : m.tasks "b" = [] := congrArg WState.tasks hb
  have hbn : ∀ v, (v, "b") ∉ m.cache := by
    intro v hv
    have := mem_noted.2 hv
    rw [show m.noted "b" = [] from congrArg WState.noted hb] at this
    cases this
  have k5 := KReach.step k2 (.keep "a" 0 ⟨1, exKept, .over [1] [] [exFound F64.one 0x3F800000] [exFound F64.one 0x3F800000]⟩ _ _ _ _ exKept.timeout k
    (by show (m.tasks "a")[0]? = _; rw [ht]; rfl) rfl (by decide) hk)
  have k6 := KReach.step k5 (.search (.whole (.client "b" hbt)))
  have k7 := KReach.step k6 (.hit "b" 0 ⟨1, exKept, .begun⟩ exKept.timeout k [exFound F64.one 0x3F800000] [exFound F64.one 0x3F800000]
    [exFound F64.one 0x3F800000] (by simp [put_self, exAskKept]) rfl (hbn 1) (by decide) hk List.mem_cons_self (fun x hx => hx) hm)
  refine ⟨_, [exFound F64.one 0x3F800000], k7, ?_, by simp [put_self, exAskKept], exSite [0x3F800000], .inr (.inl ⟨rfl, rfl⟩), ?_⟩
  · refine ⟨[exFound F64.one 0x3F800000], fun x hx => ⟨⟨exKept, [], [exFound F64.one 0x3F800000], [exFound F64.one 0x3F800000]⟩, ?_, hx⟩, hm⟩
    simp [WState.ans, MState.one, put_self, exAskKept]
  · have := (exHits (config := exKept) rfl rfl (xss := [[0x3F800000]]) (by decide) (exFound F64.one 0x3F800000)).2
      ⟨_, List.mem_cons_self, 0x3F800000, List.mem_cons_self, by decide +kernel⟩
    simpa [Ref.IsHitIn, shelves] using this

end Veri
