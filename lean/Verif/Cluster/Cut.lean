import Verif.Cluster.Whole
/-
C189: the machine of C187 with time limits.
-/
set_option autoImplicit false
namespace Veri
namespace Clu
open Search Agg Ref Store

/-- The steps of a search of the cluster, with time limits. -/
inductive LStep (E : Env) (q : Datum) (C : Cluster) (anon : Bool) : WState → WState → Prop
  | whole {s s' : WState} : WStep E q C anon s s' → LStep E q C anon s s'
  /-- data/search.go:220-223 and 286-289: the time is up at a node, for one or both of its loops; it has taken `got` of its own results and of
  those which its sources have sent so far, and `late` of what came of that.  A source that is still at work goes on. -/
  | cut {s : WState} (j : Nat) (t : WTask) (site : Site) (own : List ScoredDatum) (kids : List Nat) (got found late sent : List ScoredDatum) :
      s.tasks[j]? = some t → t.phase = .asked site own kids →
      (∀ x ∈ got, x ∈ own ∨ ∃ k ∈ kids, ∃ a, s.ans k = some a ∧ x ∈ a.sent) → flatMerge E t.config none got = .ok found →
      (∀ x ∈ late, x ∈ found) → flatMerge E t.config none late = .ok sent →
      LStep E q C anon s { s with tasks := s.tasks.set j { t with phase := .over kids [] found sent } }

inductive LReach (E : Env) (q : Datum) (C : Cluster) (anon : Bool) (config : SearchConfig) (i : Nat) : WState → Prop
  | start : LReach E q C anon config i (.start config i)
  | step {s s' : WState} : LReach E q C anon config i s → LStep E q C anon s s' → LReach E q C anon config i s'

/-- data/search.go:254-298: what the client gets, at any moment: the merge of some of what the search has found, of nothing if it is not over. -/
def LAnswer (E : Env) (config : SearchConfig) (s : WState) (out : List ScoredDatum) : Prop :=
  ∃ got, (∀ x ∈ got, ∃ a, s.ans 0 = some a ∧ x ∈ a.found) ∧ flatMerge E config none got = .ok out

/-- A live match at a node connected with `i`. -/
def CHit (E : Env) (config : SearchConfig) (q : DatumKey) (C : Cluster) (i : Nat) (x : ScoredDatum) : Prop :=
  ∃ v site, Linked C.next i v ∧ C.holds v site ∧ IsHit E config q (shows (abs site.dt.dbMap) site.clock) x

structure LInv (E : Env) (q : DatumKey) (C : Cluster) (config : SearchConfig) (i : Nat) (s : WState) : Prop where
  node : ∀ t ∈ s.tasks, Linked C.next i t.node
  conf : ∀ t ∈ s.tasks, ∃ tm, t.config = { config with timeout := tm }
  asked : ∀ t ∈ s.tasks, ∀ site own ks, t.phase = .asked site own ks → ∀ x ∈ own, CHit E config q C i x
  over : ∀ t ∈ s.tasks, ∀ ks ps f o, t.phase = .over ks ps f o → (∀ x ∈ f, CHit E config q C i x) ∧ ∀ x ∈ o, CHit E config q C i x

theorem chit_keyed {E : Env} {config : SearchConfig} {q : DatumKey} {C : Cluster} {i : Nat} {xs : List ScoredDatum}
    (h : ∀ x ∈ xs, CHit E config q C i x) : Keyed xs := by
  intro x hx
  obtain ⟨v, site, -, -, k, w, h, -⟩ := h x hx
  exact ⟨k, some w, h⟩

theorem LInv.set {E : Env} {q : DatumKey} {C : Cluster} {config : SearchConfig} {i : Nat} {s : WState} (hi : LInv E q C config i s) {j : Nat}
    {t : WTask} (h : s.tasks[j]? = some t) (ph : WPhase) (new : List WTask) (noted : List Nat)
    (hn : ∀ x ∈ new, Linked C.next i x.node ∧ (∃ tm, x.config = { config with timeout := tm }) ∧ x.phase = .begun)
    (ha : ∀ site own ks, ph = .asked site own ks → ∀ x ∈ own, CHit E config q C i x)
    (ho : ∀ ks ps f o, ph = .over ks ps f o → (∀ x ∈ f, CHit E config q C i x) ∧ ∀ x ∈ o, CHit E config q C i x) :
    LInv E q C config i ⟨s.tasks.set j { t with phase := ph } ++ new, noted⟩ := by
  have htm := List.mem_of_getElem? h
  have hm : ∀ x ∈ s.tasks.set j { t with phase := ph } ++ new, x ∈ s.tasks ∨ x = { t with phase := ph } ∨ x ∈ new := by
    intro x hx
    rcases List.mem_append.1 hx with hx | hx
    · exact (List.mem_or_eq_of_mem_set hx).imp id Or.inl
    · exact Or.inr (Or.inr hx)
  refine ⟨?_, ?_, ?_, ?_⟩
  · intro x hx
    rcases hm x hx with hx | rfl | hx
    · exact hi.node x hx
    · exact hi.node t htm
    · exact (hn x hx).1
  · intro x hx
    rcases hm x hx with hx | rfl | hx
    · exact hi.conf x hx
    · exact hi.conf t htm
    · exact (hn x hx).2.1
  · intro x hx
    rcases hm x hx with hx | rfl | hx
    · exact hi.asked x hx
    · exact ha
    · intro site own ks he; rw [(hn x hx).2.2] at he; cases he
  · intro x hx
    rcases hm x hx with hx | rfl | hx
    · exact hi.over x hx
    · exact ho
    · intro ks ps f o he; rw [(hn x hx).2.2] at he; cases he

theorem linv_ans {E : Env} {q : DatumKey} {C : Cluster} {config : SearchConfig} {i : Nat} {s : WState} (hi : LInv E q C config i s) {k : Nat}
    {a : WAns} (h : s.ans k = some a) : (∀ x ∈ a.found, CHit E config q C i x) ∧ ∀ x ∈ a.sent, CHit E config q C i x := by
  unfold WState.ans at h
  split at h
  · rename_i nd c ks ps f o hk
    cases h
    exact hi.over _ (List.mem_of_getElem? hk) ks ps f o rfl
  · cases h

theorem linv_step {E : Env} (hE : E.Ok) {q : DatumKey} {qv : Option DatumValue} {C : Cluster} {anon : Bool} {config : SearchConfig} {i : Nat}
    (hl : 0 < config.limit) (hg : config.groupLimit = 0) (hname : Vec.isAnnoyName config.scoreFuncName = false)
    (hok : ∀ v site, C.holds v site → site.Ok) {s s' : WState} (hi : LInv E q C config i s) (h : LStep E ⟨some q, qv⟩ C anon s s') :
    LInv E q C config i s' := by
  have hmerge : ∀ t ∈ s.tasks, ∀ got found : List ScoredDatum, (∀ x ∈ got, CHit E config q C i x) → flatMerge E t.config none got = .ok found →
      ∀ x ∈ found, CHit E config q C i x := by
    intro t ht got found h1 h2 x hx
    obtain ⟨tm, hc⟩ := hi.conf t ht
    exact h1 x ((flatMerge_sub hE (by rw [hc]; exact hl) (chit_keyed h1) h2).1 x hx)
  have hnil : ∀ x ∈ ([] : List ScoredDatum), CHit E config q C i x := by intro x hx; cases hx
  cases h with
  | cut j t site own kids got found late sent h1 h2 h3 h4 h5 h6 =>
    have htm := List.mem_of_getElem? h1
    have hgot : ∀ x ∈ got, CHit E config q C i x := by
      intro x hx
      rcases h3 x hx with h | ⟨k, -, a, ha, hx⟩
      · exact hi.asked t htm site own kids h2 x h
      · exact (linv_ans hi ha).2 x hx
    have hf := hmerge t htm got found hgot h4
    have := hi.set h1 (.over kids [] found sent) [] s.noted (by simp) (by simp) (by
      intro ks ps f o he
      injection he with e1 e2 e3 e4
      subst e3 e4
      exact ⟨hf, hmerge t htm late sent (fun x hx => hf x (h5 x hx)) h6⟩)
    rwa [List.append_nil] at this
  | whole h =>
    cases h with
    | refuse j t h1 h2 h3 =>
      have := hi.set h1 (.over [] [] [] []) [] s.noted (by simp) (by simp) (by
        intro ks ps f o he
        injection he with e1 e2 e3 e4
        subst e3 e4
        exact ⟨hnil, hnil⟩)
      rwa [List.append_nil] at this
    | fail j t notes h1 h2 h3 =>
      have := hi.set h1 (.over [] [] [] []) [] (if notes then t.node :: s.noted else s.noted) (by simp) (by simp) (by
        intro ks ps f o he
        injection he with e1 e2 e3 e4
        subst e3 e4
        exact ⟨hnil, hnil⟩)
      rwa [List.append_nil] at this
    | reply j t site own kids as got found sent h1 h2 h3 h4 h5 h6 =>
      have htm := List.mem_of_getElem? h1
      obtain ⟨tm, hc⟩ := hi.conf t htm
      have hgot : ∀ x ∈ got, CHit E config q C i x := by
        intro x hx
        have := (collects_perm h4).mem_iff.2 hx
        rw [List.flatten_cons, List.mem_append] at this
        rcases this with h | h
        · exact hi.asked t htm site own kids h2 x h
        · obtain ⟨l, hl', hx'⟩ := List.mem_flatten.1 h
          obtain ⟨a, ha, rfl⟩ := List.mem_map.1 hl'
          have : some a ∈ kids.map s.ans := by rw [← h3]; exact List.mem_map_of_mem ha
          obtain ⟨k, -, he⟩ := List.mem_map.1 this
          exact (linv_ans hi he).2 x hx'
      have hf := hmerge t htm got found hgot h5
      have hsent : ∀ x ∈ sent, CHit E config q C i x := by
        obtain ⟨got', order, g1, -, g2⟩ := h6
        rw [multiMerge, if_neg (by rw [hc]; show ¬ 0 < config.groupLimit; rw [hg]; decide)] at g2
        exact hmerge t htm got' sent (fun x hx => hf x ((collects_one g1).mem_iff.1 hx)) g2
      have := hi.set h1 (.over kids ((t.node, site) :: as.flatMap (·.parts)) found sent) [] s.noted (by simp) (by simp) (by
        intro ks ps f o he
        injection he with e1 e2 e3 e4
        subst e3 e4
        exact ⟨hf, hsent⟩)
      rwa [List.append_nil] at this
    | serve j t site dt' own dsts timeout h1 h2 h3 h4 h5 h6 =>
      have htm := List.mem_of_getElem? h1
      obtain ⟨tm, hc⟩ := hi.conf t htm
      have hlink := hi.node t htm
      refine hi.set h1 (.asked site own _) _ _ ?_ ?_ (by simp)
      · intro x hx
        obtain ⟨d, hd, rfl⟩ := List.mem_map.1 hx
        obtain ⟨o, ho, rfl⟩ := h6
        exact ⟨.step hlink (ho.mem_iff.1 (List.mem_of_mem_take hd)), ⟨timeout, by simp only [hc]⟩, rfl⟩
      · intro site' own' ks he x hx
        injection he with e1 e2 e3
        subst e1 e2
        have hos := hok _ _ h4
        obtain ⟨d, c, cands, g1, -, g3, -, -, g6⟩ := C72_nan_partial E hE site.dt site.vs site.clock q qv t.config hos.wf hos.range hos.clock
          (by rw [hc]; exact hl)
        unfold streamSearch at h5
        simp only [Option.getD_some, show Vec.isAnnoyName t.config.scoreFuncName = false by rw [hc]; exact hname, Bool.false_eq_true, if_false] at h5
        rw [g1, Res.bind_ok] at h5
        injection h5 with h5
        injection h5 with _ h5
        subst h5
        have := (g3 x).1 (g6 x hx)
        rw [hc] at this
        exact ⟨t.node, site, hlink, h4, this⟩

theorem linv_reach {E : Env} (hE : E.Ok) {q : DatumKey} {qv : Option DatumValue} {C : Cluster} {anon : Bool} {config : SearchConfig} {i : Nat}
    (hl : 0 < config.limit) (hg : config.groupLimit = 0) (hname : Vec.isAnnoyName config.scoreFuncName = false)
    (hok : ∀ v site, C.holds v site → site.Ok) {s : WState} (h : LReach E ⟨some q, qv⟩ C anon config i s) : LInv E q C config i s := by
  induction h with
  | start =>
    have hm : ∀ t ∈ (WState.start config i).tasks, t = ⟨i, config, .begun⟩ := by simp [WState.start]
    refine ⟨?_, ?_, ?_, ?_⟩
    · intro t ht; rw [hm t ht]; exact .refl
    · intro t ht; rw [hm t ht]; exact ⟨config.timeout, rfl⟩
    · intro t ht site own ks he; rw [hm t ht] at he; cases he
    · intro t ht ks ps f o he; rw [hm t ht] at he; cases he
  | step _ hs ih => exact linv_step hE hl hg hname hok ih hs

/-- Executions with the number of steps. -/
inductive LRun (E : Env) (q : Datum) (C : Cluster) (anon : Bool) (config : SearchConfig) (i : Nat) : Nat → WState → Prop
  | start : LRun E q C anon config i 0 (.start config i)
  | step {n : Nat} {s s' : WState} : LRun E q C anon config i n s → LStep E q C anon s s' → LRun E q C anon config i (n + 1) s'

theorem nodes_step {E : Env} {q : Datum} {C : Cluster} {anon : Bool} {N : Nat} (hnext : ∀ v, ∀ w ∈ C.next v, w < N) {s s' : WState}
    (ih : ∀ t ∈ s.tasks, t.node < N) (hs : LStep E q C anon s s') : ∀ t ∈ s'.tasks, t.node < N := by
  have hset : ∀ (j : Nat) (t t' : WTask), s.tasks[j]? = some t → t'.node = t.node → ∀ x ∈ s.tasks.set j t', x.node < N := by
    intro j t t' h1 h2 x hx
    rcases List.mem_or_eq_of_mem_set hx with hx | rfl
    · exact ih x hx
    · rw [h2]; exact ih t (List.mem_of_getElem? h1)
  cases hs with
  | cut j t site own kids got found late sent h1 => exact hset j t _ h1 rfl
  | whole hs =>
    cases hs with
    | refuse j t h1 h2 h3 => exact hset j t _ h1 rfl
    | fail j t notes h1 h2 h3 => exact hset j t _ h1 rfl
    | reply j t site own kids as got found sent h1 => exact hset j t _ h1 rfl
    | serve j t site dt' own dsts timeout h1 h2 h3 h4 h5 h6 =>
      intro x hx
      rcases List.mem_append.1 hx with hx | hx
      · exact hset j t { t with phase := .asked site own _ } h1 rfl x hx
      · obtain ⟨d, hd, rfl⟩ := List.mem_map.1 hx
        obtain ⟨o, ho, rfl⟩ := h6
        exact hnext _ d (ho.mem_iff.1 (List.mem_of_mem_take hd))

theorem lcost_step {E : Env} {q : Datum} {C : Cluster} {anon : Bool} {N : Nat} {s s' : WState} (hn : ∀ t ∈ s.tasks, t.node < N)
    (h : LStep E q C anon s s') : s'.cost N anon + 1 ≤ s.cost N anon := by
  cases h with
  | whole h => exact cost_step hn h
  | cut j t site own kids got found late sent h1 h2 h3 h4 h5 h6 =>
    have hc := cost_set s.tasks j t { t with phase := .over kids [] found sent } h1
    have hf := first_le (anon := anon) (noted := s.noted) (t' := { t with phase := .over kids [] found sent }) (new := []) h1 (by simp)
    rw [List.append_nil] at hf
    have hf := hf.1
    have : t.cost = 1 := by simp only [WTask.cost, h2]
    have h0 : WTask.cost { t with phase := .over kids [] found sent } = 0 := rfl
    unfold WState.cost
    simp only [WState.unseen] at *
    omega

end Clu
open Clu Search Store Agg

/-- **C189.**  Whatever time limits come at whatever moment at whichever nodes, whatever nodes fail and however many sources are passed over: all
that a client gets are live matches, with their scores, stored at nodes which a chain of sources connects with the one asked; no key twice, and
no more than asked for. -/
theorem C189_genuine (E : Env) (hE : E.Ok) (C : Cluster) (anon : Bool) (config : SearchConfig) (i : Nat) (q : DatumKey) (qv : Option DatumValue)
    (s : WState) (out : List ScoredDatum) (hl : 0 < config.limit) (hg : config.groupLimit = 0)
    (hname : ¬ "Annoy".toList <+: config.scoreFuncName.toList) (hok : ∀ v site, C.holds v site → site.Ok)
    (hs : LReach E ⟨some q, qv⟩ C anon config i s) (ho : LAnswer E config s out) :
    (∀ y ∈ out, ∃ v site, Linked C.next i v ∧ C.holds v site ∧ Ref.IsHit E config q (Ref.shows (abs site.dt.dbMap) site.clock) y) ∧
    (out.map (·.datum.key)).Nodup ∧ out.length ≤ Ref.asked config := by
  have hn : Vec.isAnnoyName config.scoreFuncName = false := by
    cases h : Vec.isAnnoyName config.scoreFuncName with
    | false => rfl
    | true => exact absurd (List.isPrefixOf_iff_prefix.mp h) hname
  have hi := linv_reach hE hl hg hn hok hs
  obtain ⟨got, h1, h2⟩ := ho
  have hgot : ∀ x ∈ got, CHit E config q C i x := by
    intro x hx
    obtain ⟨a, ha, hx⟩ := h1 x hx
    exact (linv_ans hi ha).1 x hx
  have hkd := chit_keyed hgot
  have hcons : Ref.Consistent got := by
    intro x hx y hy hk
    obtain ⟨v, site, -, -, h3⟩ := hgot x hx
    obtain ⟨w, site', -, -, h4⟩ := hgot y hy
    rw [hit_score h3 h4 hk]
    exact F64.lt_irrefl _
  obtain ⟨a, cands, g1, g2, -, -, -⟩ := C29_no_duplicates_partial E hE config got hl hkd hcons
  have h2' := h2
  unfold flatMerge at h2'
  rw [g1, Res.bind_ok] at h2'
  obtain ⟨b1, b2, ⟨t, b3⟩, -⟩ := C31_result_bounded E hE config none got a out g1 h2'
  refine ⟨fun y hy => hgot y ((flatMerge_sub hE hl hkd h2).1 y hy), ?_, ?_⟩
  · rw [← b3, List.map_append] at g2
    exact (List.nodup_append.1 g2).1
  · unfold Ref.asked
    split
    · exact b1
    · rename_i h
      have := b2 h
      omega

/-- C188, with time limits: however many requests are given up while the nodes asked are still at work, all that a search sets going in the cluster
ends after at most `12 N + 14` steps. -/
theorem C188_limited (E : Env) (C : Cluster) (anon : Bool) (config : SearchConfig) (i N : Nat) (q : Datum) (hN : i < N)
    (hnext : ∀ v, ∀ w ∈ C.next v, w < N) (n : Nat) (s : WState) (h : LRun E q C anon config i n s) : n ≤ 12 * N + 14 := by
  have : n + s.cost N anon ≤ 12 * N + 14 ∧ ∀ t ∈ s.tasks, t.node < N := by
    induction h with
    | start =>
      have h1 : (WState.start config i).unseen N ≤ N := by
        unfold WState.unseen
        exact Nat.le_trans (List.length_filter_le _ _) (by simp)
      have h2 : (WState.start config i).first anon ≤ 12 := by
        unfold WState.first WState.start
        simp only [List.getElem?_cons_zero]
        split <;> omega
      have h3 : ((WState.start config i).tasks.map WTask.cost).sum = 2 := rfl
      refine ⟨by unfold WState.cost; omega, ?_⟩
      intro t ht
      simp only [WState.start, List.mem_singleton] at ht
      rw [ht]; exact hN
    | step h hs ih =>
      have := lcost_step ih.2 hs
      exact ⟨by omega, nodes_step hnext ih.2 hs⟩
  omega

/-- C189 at work: three nodes in a ring (C187).  The second is asked, has found its own point and asked the third when the time is up; the client
gets that point, while the third has not yet begun. -/
theorem C189_example : ∃ s, LReach exEnv ⟨some (exPoint 0), none⟩ exRing false exBoth 1 s ∧
    LAnswer exEnv exBoth s [exFound F64.one 0x3F800000] ∧ (∃ t ∈ s.tasks, t.node = 2 ∧ t.phase = .begun) ∧
    Linked exRing.next 1 1 ∧ ∃ site, exRing.holds 1 site ∧
      Ref.IsHit exEnv exBoth (exPoint 0) (Ref.shows (abs site.dt.dbMap) site.clock) (exFound F64.one 0x3F800000) := by
  obtain ⟨dt', ho⟩ := exOwn_some (E := exEnv) (config := exBoth) (xs := [0x3F800000]) (l := [exFound F64.one 0x3F800000]) (by decide +kernel)
  have hm : flatMerge exEnv exBoth none [exFound F64.one 0x3F800000] = .ok [exFound F64.one 0x3F800000] := outOf_some (by decide +kernel)
  have r1 := LReach.step (LReach.start (E := exEnv) (q := ⟨some (exPoint 0), none⟩) (C := exRing) (anon := false) (config := exBoth) (i := 1))
    (.whole (.serve 0 ⟨1, exBoth, .begun⟩ (exSite [0x3F800000]) dt' [exFound F64.one 0x3F800000] [2] 0 rfl rfl (by simp [WState.start])
      (.inr (.inl ⟨rfl, rfl⟩)) ho ⟨[2], .refl _, rfl⟩))
  have r2 := LReach.step r1 (.cut 0 _ _ _ _ [exFound F64.one 0x3F800000] [exFound F64.one 0x3F800000] [exFound F64.one 0x3F800000]
    [exFound F64.one 0x3F800000] rfl rfl (fun x hx => .inl hx) hm (fun x hx => hx) hm)
  have ha : LAnswer exEnv exBoth ⟨[⟨1, exBoth, .over [1] [] [exFound F64.one 0x3F800000] [exFound F64.one 0x3F800000]⟩,
      ⟨2, { exBoth with timeout := 0 }, .begun⟩], [1]⟩ [exFound F64.one 0x3F800000] := ⟨[exFound F64.one 0x3F800000], fun x hx =>
    ⟨⟨exBoth, [], [exFound F64.one 0x3F800000], [exFound F64.one 0x3F800000]⟩, rfl, hx⟩, hm⟩
  refine ⟨_, r2, ha, ⟨⟨2, { exBoth with timeout := 0 }, .begun⟩, List.mem_cons_of_mem _ List.mem_cons_self, rfl, rfl⟩, .refl, ?_⟩
  refine ⟨exSite [0x3F800000], .inr (.inl ⟨rfl, rfl⟩), ?_⟩
  have := (exHits (config := exBoth) rfl rfl (xss := [[0x3F800000]]) (by decide) (exFound F64.one 0x3F800000)).2
    ⟨_, List.mem_cons_self, 0x3F800000, List.mem_cons_self, by decide +kernel⟩
  simpa [Ref.IsHitIn, shelves] using this

/-- C187, for what is inserted: a datum whose insert at the node `w` was accepted, and which has not expired and is not written again there, is found
(or what another node has under its key) by every search of any node from which a chain of sources that answer leads to `w`, if its filters let it
pass and there is room; whatever else is inserted, deleted and scanned at that node and at all others, before and during the search. -/
theorem C187_inserted (E : Env) (hE : E.Ok) (C : Cluster) (anon : Bool) (config : SearchConfig) (context : Option SearchContext) (i : Nat)
    (q : DatumKey) (qv : Option DatumValue) (s : WState) (a : WAns) (out : List ScoredDatum) (h6 : ∀ v, (C.next v).length ≤ 6) (h0 : ¬ C.faulty i)
    (hl : 0 < config.limit) (hr : config.resultLimit.toNat < 2^63) (hg : config.groupLimit = 0)
    (hname : ¬ "Annoy".toList <+: config.scoreFuncName.toList) (hok : ∀ v site, C.holds v site → site.Ok)
    (keys : List (Option DatumKey)) (hroom : keys.length ≤ Ref.asked config)
    (hk : ∀ v site, C.holds v site → ∀ x, Ref.IsHit E config q (Ref.shows (abs site.dt.dbMap) site.clock) x → x.datum.key ∈ keys)
    (hs : WReach E ⟨some q, qv⟩ C anon config i s) (ha : s.ans 0 = some a) (ho : MultiOut E config context [a.found] out)
    (w : Nat) (hw : Intact C i w) (now : Int64) (k : DatumKey) (v : DatumValue) (ic : Option InsertConfig)
    (hins : ∀ site, C.holds w site → ∃ ops0 m0 m1 out1 ops, Steps [] ops0 m0 ∧ Step m0 (.insert now k v ic) m1 out1 ∧
      Steps m1 ops site.dt.dbMap ∧ (∀ op ∈ ops0, op.NoOverflow) ∧ (∀ op ∈ ops, ¬ op.writes k) ∧ (∀ op ∈ ops, op.during k now ic) ∧
      Lasts now ic (site.clock k))
    (hpass : Ref.Passes E.jsonHas config ⟨some k, some v⟩) :
    ∃ y ∈ out, y.datum.key = some k := by
  obtain ⟨h1, -, -⟩ := C187_whole_cluster E hE C anon config context i q qv s a out h6 h0 hl hr hg hname hok keys hroom hk hs ha ho
  refine h1 w hw ⟨(Vec.getVectorComparisonFunction config.scoreFuncName).eval E.o k.feature q.feature, ⟨some k, some v⟩⟩ fun site hsite => ?_
  obtain ⟨ops0, m0, m1, out1, ops, g1, g2, g3, g4, g5, g6, g7⟩ := hins site hsite
  exact ⟨k, v, rfl, inserted_shows site g1 g2 g3 rfl (hok w site hsite) g4 g5 g6 g7, hpass, rfl⟩

end Veri
