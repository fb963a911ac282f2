import Verif.Cluster.Cut
/-
C200: searches of the whole cluster (`WStep`, node/nodeservice.go:118-155, data/search.go:161-298) while data are inserted, deleted and moved
from node to node (data/newsync.go:110-135: `Process` sends a datum to another node and, when that node has taken it and eviction is on, deletes it).

Not modelled here: a node's own scan is one step (C123 and C124 are about changes during one scan), and nodes share no clock.
-/
set_option autoImplicit false
namespace Veri
namespace Clu
open Search Agg Ref Store

/-- What the nodes hold now, the search, and (ghost) in which state each node was when it searched. -/
structure TState where
  world : Nat → Site
  search : WState
  seen : Nat → Site → Prop

/-- The request has been served at the node `v`, in the state `site`. -/
def Asked (t : WState) (v : Nat) (site : Site) : Prop := ∃ (j : Nat) (c : SearchConfig) (own : List ScoredDatum) (kids : List Nat),
  t.tasks[j]? = some ⟨v, c, .asked site own kids⟩

/-- The cluster with what its nodes hold now. -/
def Cluster.now (C : Cluster) (w : Nat → Site) : Cluster := { C with holds := fun v site => site = w v }

/-- The steps of the nodes and of a search (`WStep`).  `P` is what is known of the contents at all times. -/
inductive TStep (E : Env) (q : Datum) (C : Cluster) (anon : Bool) (P : (Nat → Site) → Prop) : TState → TState → Prop
  /-- Inserts, deletes and scans at a node (data/newsync.go:27-91), in the rebalancing (data/newsync.go:110-135) or by
  clients; time passes (`site.clock`). -/
  | change {s : TState} (v : Nat) (site : Site) (ops : List Op) : Steps (s.world v).dt.dbMap ops site.dt.dbMap → site.Ok →
      P (fun u => if u = v then site else s.world u) → TStep E q C anon P s { s with world := fun u => if u = v then site else s.world u }
  /-- A step of the search; a node that is asked searches what it holds at this moment. -/
  | act {s : TState} {t : WState} : WStep E q (C.now s.world) anon s.search t →
      TStep E q C anon P s ⟨s.world, t, fun v site => s.seen v site ∨ Asked t v site⟩

inductive TReach (E : Env) (q : Datum) (C : Cluster) (anon : Bool) (P : (Nat → Site) → Prop) (config : SearchConfig) (i : Nat) : TState → Prop
  | start (w : Nat → Site) : (∀ v, (w v).Ok) → P w → TReach E q C anon P config i ⟨w, .start config i, fun _ _ => False⟩
  | step {s s' : TState} : TReach E q C anon P config i s → TStep E q C anon P s s' → TReach E q C anon P config i s'

/-- The cluster with what its nodes held when they were asked. -/
def Cluster.then_ (C : Cluster) (s : TState) : Cluster := { C with holds := s.seen }

theorem wreach_mono {E : Env} {q : Datum} {C : Cluster} {anon : Bool} {config : SearchConfig} {i : Nat} {h h' : Nat → Site → Prop}
    (hh : ∀ v site, h v site → h' v site) {s : WState} (hs : WReach E q { C with holds := h } anon config i s) :
    WReach E q { C with holds := h' } anon config i s := by
  induction hs with
  | start => exact .start
  | step _ hst ih =>
    cases hst with
    | serve j t site dt' own dsts timeout h1 h2 h3 h4 h5 h6 => exact .step ih (.serve j t site dt' own dsts timeout h1 h2 h3 (hh _ _ h4) h5 h6)
    | refuse j t h1 h2 h3 => exact .step ih (.refuse j t h1 h2 h3)
    | fail j t notes h1 h2 h3 => exact .step ih (.fail j t notes h1 h2 h3)
    | reply j t site own kids as got found sent h1 h2 h3 h4 h5 h6 => exact .step ih (.reply j t site own kids as got found sent h1 h2 h3 h4 h5 h6)

/-- What happened is a search of the cluster as it was asked. -/
theorem t_reach {E : Env} {q : Datum} {C : Cluster} {anon : Bool} {P : (Nat → Site) → Prop} {config : SearchConfig} {i : Nat} {s : TState}
    (hs : TReach E q C anon P config i s) : WReach E q (C.then_ s) anon config i s.search := by
  induction hs with
  | start w h1 h2 => exact .start
  | @step s s' _ hst ih =>
    cases hst with
    | change v site ops h1 h2 h3 => exact ih
    | @act t hw =>
      have ih' := wreach_mono (h' := fun v site => s.seen v site ∨ Asked t v site) (fun v site h => Or.inl h) ih
      refine .step ih' ?_
      cases hw with
      | serve j t site dt' own dsts timeout h1 h2 h3 h4 h5 h6 =>
        refine .serve j t site dt' own dsts timeout h1 h2 h3 (.inr ⟨j, t.config, own, List.range' s.search.tasks.length dsts.length, ?_⟩) h5 h6
        have hl := (List.getElem?_eq_some_iff.1 h1).1
        rw [List.getElem?_append_left (by rw [List.length_set]; exact hl), List.getElem?_set, if_pos rfl, if_pos hl]
      | refuse j t h1 h2 h3 => exact .refuse j t h1 h2 h3
      | fail j t notes h1 h2 h3 => exact .fail j t notes h1 h2 h3
      | reply j t site own kids as got found sent h1 h2 h3 h4 h5 h6 => exact .reply j t site own kids as got found sent h1 h2 h3 h4 h5 h6

/-- What a step of the search adds to what has been asked. -/
theorem asked_step {E : Env} {q : Datum} {C : Cluster} {anon : Bool} {w : Nat → Site} {s t : WState} (hw : WStep E q (C.now w) anon s t)
    {v : Nat} {site : Site} (h : Asked t v site) :
    Asked s v site ∨ (site = w v ∧ v ∉ s.noted ∧ (anon = false → v ∈ t.noted) ∧ ∃ t' ∈ s.tasks, t'.node = v) := by
  obtain ⟨k, c, own', kids', hk⟩ := h
  have silent : ∀ (j : Nat) (t0 : WTask) (ks : List Nat) (ps : List (Nat × Site)) (f o : List ScoredDatum),
      (s.tasks.set j { t0 with phase := .over ks ps f o })[k]? = some ⟨v, c, .asked site own' kids'⟩ → Asked s v site := by
    intro j t0 ks ps f o h
    rw [List.getElem?_set] at h
    split at h
    · split at h <;> simp at h
    · exact ⟨k, c, own', kids', h⟩
  cases hw with
  | serve j t0 st dt' own dsts timeout h1 h2 h3 h4 h5 h6 =>
    have hl := (List.getElem?_eq_some_iff.1 h1).1
    by_cases hlt : k < s.tasks.length
    · simp only at hk
      rw [List.getElem?_append_left (by rw [List.length_set]; exact hlt), List.getElem?_set] at hk
      by_cases hj : j = k
      · subst hj
        rw [if_pos rfl, if_pos hl] at hk
        simp only [Option.some.injEq, WTask.mk.injEq, WPhase.asked.injEq] at hk
        obtain ⟨rfl, rfl, rfl, -, -⟩ := hk
        refine .inr ⟨h4, h3, fun ha => ?_, t0, List.mem_of_getElem? h1, rfl⟩
        simp [ha]
      · rw [if_neg hj] at hk
        exact .inl ⟨k, c, own', kids', hk⟩
    · exfalso
      simp only at hk
      rw [List.getElem?_append_right (by rw [List.length_set]; omega)] at hk
      have := List.mem_of_getElem? hk
      simp at this
  | refuse j t0 h1 h2 h3 => exact .inl (silent _ _ _ _ _ _ hk)
  | fail j t0 notes h1 h2 h3 => exact .inl (silent _ _ _ _ _ _ hk)
  | reply j t0 st own kids as got found sent h1 h2 h3 h4 h5 h6 => exact .inl (silent _ _ _ _ _ _ hk)

/-- What holds of what has been asked. -/
structure TInv (C : Cluster) (anon : Bool) (P : (Nat → Site) → Prop) (i : Nat) (s : TState) : Prop where
  ok : ∀ v, (s.world v).Ok
  good : P s.world
  asked : ∀ v site, Asked s.search v site → s.seen v site
  noted : anon = false → ∀ v site, s.seen v site → v ∈ s.search.noted
  once : anon = false → ∀ v site site', s.seen v site → s.seen v site' → site = site'
  moment : ∀ v site, s.seen v site → ∃ w, P w ∧ site = w v ∧ site.Ok
  nodes : ∀ t ∈ s.search.tasks, Linked C.next i t.node
  linked : ∀ v site, s.seen v site → Linked C.next i v

theorem noted_mono {E : Env} {q : Datum} {C : Cluster} {anon : Bool} {s t : WState} (hw : WStep E q C anon s t) {v : Nat}
    (h : v ∈ s.noted) : v ∈ t.noted := by
  cases hw with
  | serve j t0 st dt' own dsts timeout h1 h2 h3 h4 h5 h6 => simp only; split <;> simp [h]
  | refuse j t0 h1 h2 h3 => exact h
  | fail j t0 notes h1 h2 h3 => simp only; split <;> simp [h]
  | reply j t0 st own kids as got found sent h1 h2 h3 h4 h5 h6 => exact h

theorem linked_step {E : Env} {q : Datum} {C : Cluster} {anon : Bool} {i : Nat} {s t : WState} (hw : WStep E q C anon s t)
    (h : ∀ t ∈ s.tasks, Linked C.next i t.node) : ∀ t' ∈ t.tasks, Linked C.next i t'.node := by
  intro t' ht'
  cases hw with
  | serve j t0 st dt' own dsts timeout h1 h2 h3 h4 h5 h6 =>
    have h0 := h t0 (List.mem_of_getElem? h1)
    rcases List.mem_append.1 ht' with h' | h'
    · rcases List.mem_or_eq_of_mem_set h' with h' | rfl
      · exact h t' h'
      · exact h0
    · obtain ⟨d, hd, rfl⟩ := List.mem_map.1 h'
      obtain ⟨o, ho, rfl⟩ := h6
      exact .step h0 (ho.mem_iff.1 (List.mem_of_mem_take hd))
  | refuse j t0 h1 h2 h3 =>
    rcases List.mem_or_eq_of_mem_set ht' with h' | rfl
    · exact h t' h'
    · exact h t0 (List.mem_of_getElem? h1)
  | fail j t0 notes h1 h2 h3 =>
    rcases List.mem_or_eq_of_mem_set ht' with h' | rfl
    · exact h t' h'
    · exact h t0 (List.mem_of_getElem? h1)
  | reply j t0 st own kids as got found sent h1 h2 h3 h4 h5 h6 =>
    rcases List.mem_or_eq_of_mem_set ht' with h' | rfl
    · exact h t' h'
    · exact h t0 (List.mem_of_getElem? h1)

theorem t_inv {E : Env} {q : Datum} {C : Cluster} {anon : Bool} {P : (Nat → Site) → Prop} {config : SearchConfig} {i : Nat} {s : TState}
    (hs : TReach E q C anon P config i s) : TInv C anon P i s := by
  induction hs with
  | start w h1 h2 =>
    refine ⟨h1, h2, ?_, fun _ _ _ h => h.elim, fun _ _ _ _ h => h.elim, fun _ _ h => h.elim, ?_, fun _ _ h => h.elim⟩
    · rintro v site ⟨j, c, own, kids, h⟩
      have := List.mem_of_getElem? h
      simp [WState.start] at this
    · intro t ht
      rw [List.mem_singleton.1 ht]
      exact .refl
  | @step s s' _ hst ih =>
    cases hst with
    | change v site ops h1 h2 h3 =>
      refine ⟨?_, h3, ih.asked, ih.noted, ih.once, ih.moment, ih.nodes, ih.linked⟩
      intro u
      simp only
      split
      · exact h2
      · exact ih.ok u
    | @act t hw =>
      have hsplit : ∀ v site, (s.seen v site ∨ Asked t v site) → s.seen v site ∨
          (site = s.world v ∧ v ∉ s.search.noted ∧ (anon = false → v ∈ t.noted) ∧ ∃ t' ∈ s.search.tasks, t'.node = v) := by
        intro v site h
        rcases h with h | h
        · exact .inl h
        · rcases asked_step hw h with h | h
          · exact .inl (ih.asked v site h)
          · exact .inr h
      refine ⟨ih.ok, ih.good, fun v site h => .inr h, ?_, ?_, ?_, linked_step (C := C.now s.world) hw ih.nodes, ?_⟩
      · intro ha v site h
        rcases hsplit v site h with h | h
        · exact noted_mono hw (ih.noted ha v site h)
        · exact h.2.2.1 ha
      · intro ha v site site' h h'
        rcases hsplit v site h with h | h <;> rcases hsplit v site' h' with h' | h'
        · exact ih.once ha v site site' h h'
        · exact absurd (ih.noted ha v site h) h'.2.1
        · exact absurd (ih.noted ha v site' h') h.2.1
        · rw [h.1, h'.1]
      · intro v site h
        rcases hsplit v site h with h | h
        · exact ih.moment v site h
        · exact ⟨s.world, ih.good, h.1, h.1 ▸ ih.ok v⟩
      · intro v site h
        rcases hsplit v site h with h | ⟨-, -, -, t', ht', rfl⟩
        · exact ih.linked v site h
        · exact ih.nodes t' ht'

theorem intact_of_linked {C : Cluster} {i v : Nat} (hf : ∀ v, ¬ C.faulty v) (h : Linked C.next i v) : Intact C i v := by
  induction h with
  | refl => exact .refl
  | step _ h1 ih => exact .step ih h1 (hf _)

theorem intact_holds {C : Cluster} {h : Nat → Site → Prop} {i v : Nat} (hi : Intact C i v) : Intact { C with holds := h } i v := by
  induction hi with
  | refl => exact .refl
  | step _ h1 h2 ih => exact .step ih h1 h2

/-- A node in this state shows the match `x`. -/
def HasHit (E : Env) (config : SearchConfig) (q : DatumKey) (site : Site) (x : ScoredDatum) : Prop :=
  Ref.IsHit E config q (Ref.shows (Store.abs site.dt.dbMap) site.clock) x

end Clu

open Clu Search Store

/-- C200, first theorem: a match that one node keeps during the search, or that was there whenever this node searched, is returned under its
key, whatever moves elsewhere. -/
theorem C200_partial (E : Env) (hE : E.Ok) (C : Cluster) (anon : Bool) (config : SearchConfig) (context : Option SearchContext) (i : Nat)
    (q : DatumKey) (qv : Option DatumValue) (P : (Nat → Site) → Prop) (s : TState) (a : WAns) (out : List ScoredDatum)
    (h6 : ∀ v, (C.next v).length ≤ 6) (h0 : ¬ C.faulty i)
    (hl : 0 < config.limit) (hr : config.resultLimit.toNat < 2^63) (hg : config.groupLimit = 0)
    (hname : ¬ "Annoy".toList <+: config.scoreFuncName.toList)
    (keys : List (Option DatumKey)) (hroom : keys.length ≤ Ref.asked config)
    (hk : ∀ w, P w → ∀ v x, HasHit E config q (w v) x → x.datum.key ∈ keys)
    (hs : TReach E ⟨some q, qv⟩ C anon P config i s) (ha : s.search.ans 0 = some a) (ho : MultiOut E config context [a.found] out) :
    (∀ v x, Intact C i v → (∀ site, s.seen v site → HasHit E config q site x) → ∃ y ∈ out, y.datum.key = x.datum.key) ∧
    (∀ v x, Intact C i v → (∀ w, P w → HasHit E config q (w v) x) → ∃ y ∈ out, y.datum.key = x.datum.key) ∧
    (∀ y ∈ out, ∃ w v x, P w ∧ s.seen v (w v) ∧ HasHit E config q (w v) x ∧ y.datum = x.datum) ∧
    (out.map (·.datum.key)).Nodup := by
  have hi := t_inv hs
  obtain ⟨r1, r2, r3⟩ := C187_whole_cluster E hE (C.then_ s) anon config context i q qv s.search a out h6 h0 hl hr hg hname
    (fun v site h => by obtain ⟨w, -, -, h⟩ := hi.moment v site h; exact h) keys hroom
    (fun v site h x hx => by
      obtain ⟨w, hw, rfl, -⟩ := hi.moment v site h
      exact hk w hw v x hx) (t_reach hs) ha ho
  refine ⟨fun v x hv hx => r1 v (intact_holds hv) x hx, fun v x hv hx => r1 v (intact_holds hv) x ?_, ?_, r3⟩
  · intro site h
    obtain ⟨w, hw, rfl, -⟩ := hi.moment v site h
    exact hx w hw
  · intro y hy
    obtain ⟨v, site, x, h1, h2, h3⟩ := r2 y hy
    obtain ⟨w, hw, rfl, -⟩ := hi.moment v site h1
    exact ⟨w, v, x, hw, h1, h2, h3⟩

/-- C200, exactly: where no node fails and the client gives an id, a key is returned if and only if some node showed it at the moment at which
it was asked, and no node is asked at two moments. -/
theorem C200_exact (E : Env) (hE : E.Ok) (C : Cluster) (config : SearchConfig) (context : Option SearchContext) (i : Nat)
    (q : DatumKey) (qv : Option DatumValue) (P : (Nat → Site) → Prop) (s : TState) (a : WAns) (out : List ScoredDatum)
    (h6 : ∀ v, (C.next v).length ≤ 6) (h0 : ∀ v, ¬ C.faulty v)
    (hl : 0 < config.limit) (hr : config.resultLimit.toNat < 2^63) (hg : config.groupLimit = 0)
    (hname : ¬ "Annoy".toList <+: config.scoreFuncName.toList)
    (keys : List (Option DatumKey)) (hroom : keys.length ≤ Ref.asked config)
    (hk : ∀ w, P w → ∀ v x, HasHit E config q (w v) x → x.datum.key ∈ keys)
    (hs : TReach E ⟨some q, qv⟩ C false P config i s) (ha : s.search.ans 0 = some a) (ho : MultiOut E config context [a.found] out) :
    (∀ k, (∃ y ∈ out, y.datum.key = k) ↔ ∃ v site x, s.seen v site ∧ HasHit E config q site x ∧ x.datum.key = k) ∧
    (∀ v site site', s.seen v site → s.seen v site' → site = site') ∧
    (∀ v, (∃ site, s.seen v site) ↔ Linked C.next i v) := by
  have hi := t_inv hs
  obtain ⟨r1, -, r2, -⟩ := C200_partial E hE C false config context i q qv P s a out h6 (h0 i) hl hr hg hname keys hroom hk hs ha ho
  refine ⟨fun k => ⟨?_, ?_⟩, hi.once rfl, fun v => ⟨fun ⟨site, h⟩ => hi.linked v site h, fun h => ?_⟩⟩
  · rintro ⟨y, hy, rfl⟩
    obtain ⟨w, v, x, -, h1, h2, h3⟩ := r2 y hy
    exact ⟨v, w v, x, h1, h2, by rw [h3]⟩
  · rintro ⟨v, site, x, h1, h2, rfl⟩
    refine r1 v x (intact_of_linked h0 (hi.linked v site h1)) ?_
    intro site' h'
    rw [← hi.once rfl v site site' h1 h']
    exact h2
  · have hw := winv_reach hr (t_reach hs)
    obtain ⟨site, h1, -⟩ := sound_parts hw ha (sound_served hw ha h6 (h0 i) (intact_holds (intact_of_linked h0 h)))
    exact ⟨site, h1⟩

/-- C200, full statement: a match that at every moment is shown by some node of the cluster is returned under its key. -/
def C200_statement : Prop :=
  ∀ (E : Env) (_ : E.Ok) (C : Cluster) (config : SearchConfig) (context : Option SearchContext) (i : Nat)
    (q : DatumKey) (qv : Option DatumValue) (x : ScoredDatum) (s : TState) (a : WAns) (out : List ScoredDatum)
    (_ : ∀ v, (C.next v).length ≤ 6) (_ : ∀ v, ¬ C.faulty v)
    (_ : 0 < config.limit) (_ : config.resultLimit.toNat < 2^63) (_ : config.groupLimit = 0)
    (_ : ¬ "Annoy".toList <+: config.scoreFuncName.toList)
    (P : (Nat → Site) → Prop) (_ : ∀ w, P w → ∃ v, Intact C i v ∧ HasHit E config q (w v) x)
    (keys : List (Option DatumKey)) (_ : keys.length ≤ Ref.asked config)
    (_ : ∀ w, P w → ∀ v x, HasHit E config q (w v) x → x.datum.key ∈ keys)
    (_ : TReach E ⟨some q, qv⟩ C false P config i s) (_ : s.search.ans 0 = some a) (_ : MultiOut E config context [a.found] out),
    ∃ y ∈ out, y.datum.key = x.datum.key

namespace Clu
open Ref Gencoder

/-- A datum that lives until 2000. -/
def mvStored : Bytes × Entry := (encKey (exPoint 0x3F800000), ⟨2000, ⟨some (exPoint 0x3F800000), some ⟨1, [7]⟩⟩⟩)

/-- A node that stores it or not, at 1500. -/
def mvSite : Bool → Site
  | true => ⟨{ Data.newData Data.exConfig with dbMap := [mvStored] }, [⟨mvStored.1, mvStored.2, 1500⟩], [], fun _ => 1500⟩
  | false => ⟨{ Data.newData Data.exConfig with dbMap := [] }, [], [], fun _ => 1500⟩

theorem mvSite_ok (b : Bool) : (mvSite b).Ok := by
  cases b with
  | false => exact ⟨wf_points [] (by simp), .refl _, by simp [mvSite]⟩
  | true =>
    refine ⟨⟨⟨?_, ?_⟩, ?_⟩, .refl _, ?_⟩
    · simp [mvSite, AMap.Nodup, AMap.keys]
    · intro b e he
      have := List.mem_singleton.1 he
      cases this
      exact ⟨_, rfl, rfl⟩
    · intro b e he
      have := List.mem_singleton.1 he
      cases this
      exact ⟨_, rfl⟩
    · intro v hv k _
      rw [List.mem_singleton.1 hv]
      rfl

/-- The copy is made with what is left of the lifetime (data/sync.go:25-36, data/newsync.go:184-190 and 118), then the original is deleted
(data/newsync.go:127). -/
theorem mv_copy : Steps (mvSite false).dt.dbMap [.insert 1500 (exPoint 0x3F800000) ⟨1, [7]⟩ (some ⟨500, 1⟩)] (mvSite true).dt.dbMap :=
  .cons (out := []) (.insert (b := true) (by
    simp [insertBDMap, mvSite, Res.ofOption, getKeyAsBytes_some, AMap.set, encodeToString, mvStored]
    decide)) .nil

theorem mv_drop : Steps (mvSite true).dt.dbMap [.delete (exPoint 0x3F800000) none] (mvSite false).dt.dbMap :=
  .cons (out := []) (.delete (by simp [deleteBDMap, mvSite, Res.ofOption, getKeyAsBytes_some, AMap.erase, mvStored])) .nil

/-- Two nodes; the first asks the second. -/
def mvPair : Cluster where
  next v := if v = 0 then [1] else []
  holds _ _ := False
  faulty _ := False

/-- Which of the two nodes stores the datum. -/
def mvWorld (a b : Bool) : Nat → Site := fun v => if v = 0 then mvSite a else if v = 1 then mvSite b else mvSite false

def mvP (w : Nat → Site) : Prop := ∃ a b, w = mvWorld a b ∧ (a = true ∨ b = true)

/-- The request of the client has been served at the first node, which did not store the datum. -/
def mvFirst : WState := ⟨[⟨0, exBoth, .asked (mvSite false) [] [1]⟩, ⟨1, { exBoth with timeout := 0 }, .begun⟩], [0]⟩

def mvSeen (t : WState) (seen : Nat → Site → Prop) : Nat → Site → Prop := fun v site => seen v site ∨ Asked t v site

theorem mv_first : TReach exEnv ⟨some (exPoint 0), none⟩ mvPair false mvP exBoth 0
    ⟨mvWorld false true, mvFirst, mvSeen mvFirst fun _ _ => False⟩ := by
  obtain ⟨dt', ho⟩ := exOwn_some (E := exEnv) (config := exBoth) (xs := []) (l := []) (by decide +kernel)
  refine .step (.start (mvWorld false true) ?_ ⟨false, true, rfl, .inr rfl⟩) (.act (t := mvFirst) ?_)
  · intro v
    unfold mvWorld
    split
    · exact mvSite_ok _
    · split <;> exact mvSite_ok _
  · exact .serve 0 ⟨0, exBoth, .begun⟩ (mvSite false) dt' [] [1] 0 rfl rfl (by simp [WState.start]) rfl ho ⟨[1], .refl _, rfl⟩

/-- Meanwhile the copy arrives at the first node; then the second node deletes the datum or not. -/
theorem mv_second (b : Bool) : TReach exEnv ⟨some (exPoint 0), none⟩ mvPair false mvP exBoth 0
    ⟨mvWorld true b, mvFirst, mvSeen mvFirst fun _ _ => False⟩ := by
  have e1 : (fun u => if u = 0 then mvSite true else mvWorld false true u) = mvWorld true true := by
    funext u
    unfold mvWorld
    split <;> rfl
  have h1 : TReach exEnv ⟨some (exPoint 0), none⟩ mvPair false mvP exBoth 0
      ⟨mvWorld true true, mvFirst, mvSeen mvFirst fun _ _ => False⟩ := by
    have := TReach.step mv_first (.change 0 (mvSite true) _ mv_copy (mvSite_ok _) (by rw [e1]; exact ⟨true, true, rfl, .inl rfl⟩))
    simp only [e1] at this
    exact this
  cases b with
  | true => exact h1
  | false =>
    have e2 : (fun u => if u = 1 then mvSite false else mvWorld true true u) = mvWorld true false := by
      funext u
      unfold mvWorld
      by_cases h : u = 1
      · subst h; rfl
      · rw [if_neg h, if_neg h, if_neg h]
    have := TReach.step h1 (.change 1 (mvSite false) _ mv_drop (mvSite_ok _) (by rw [e2]; exact ⟨true, false, rfl, .inl rfl⟩))
    simp only [e2] at this
    exact this

/-- The search goes on and ends. -/
theorem mv_run (b : Bool) (l : List ScoredDatum)
    (hown : ∃ dt', streamSearch exEnv (mvSite b).vs (mvSite b).answer (mvSite b).dt ⟨some (exPoint 0), none⟩ (some { exBoth with timeout := 0 }) =
      .ok (dt', l))
    (hm : flatMerge exEnv exBoth none l = .ok l) (hm' : flatMerge exEnv { exBoth with timeout := 0 } none l = .ok l)
    (hp : ∀ got : List ScoredDatum, got.Perm l → got = l) :
    ∃ s a, TReach exEnv ⟨some (exPoint 0), none⟩ mvPair false mvP exBoth 0 s ∧ s.search.ans 0 = some a ∧
      MultiOut exEnv exBoth none [a.found] l ∧ s.seen 1 (mvSite b) := by
  obtain ⟨dt', ho⟩ := hown
  obtain ⟨g1, c1⟩ := collects_exists [l]
  have e1 := hp g1 (collects_one c1)
  subst e1
  obtain ⟨g2, c2⟩ := collects_exists [[], g1]
  have e2 : g2 = g1 := hp g2 (by have := collects_perm c2; simp at this; exact this.symm)
  subst e2
  have hmulti : ∀ c : SearchConfig, c.groupLimit = 0 → flatMerge exEnv c none g2 = .ok g2 → MultiOut exEnv c none [g2] g2 := by
    intro c hc h
    exact ⟨g2, id, c1, fun m => .refl m, by rw [multiMerge, if_neg (by rw [hc]; decide)]; exact h⟩
  have h1 := TReach.step (mv_second b) (.act (.serve 1 ⟨1, { exBoth with timeout := 0 }, .begun⟩ (mvSite b) dt' g2 [] 0 rfl rfl
    (by simp [mvFirst]) rfl ho ⟨[], .refl _, rfl⟩))
  have h2 := TReach.step h1 (.act (.reply 1 ⟨1, { exBoth with timeout := 0 }, .asked (mvSite b) g2 []⟩ (mvSite b) g2 [] [] g2 g2 g2 rfl rfl rfl
    c1 hm' (hmulti _ rfl hm')))
  have h3 := TReach.step h2 (.act (.reply 0 ⟨0, exBoth, .asked (mvSite false) [] [1]⟩ (mvSite false) [] [1] [⟨_, _, g2, g2⟩] g2 g2 g2 rfl rfl rfl
    c2 hm (hmulti _ rfl hm)))
  refine ⟨_, _, h3, rfl, hmulti _ rfl hm, ?_⟩
  exact .inl (.inl (.inr ⟨1, _, _, _, rfl⟩))

theorem mv_hit (b : Bool) (x : ScoredDatum) : HasHit exEnv exBoth (exPoint 0) (mvSite b) x ↔ b = true ∧ x = exFound F64.one 0x3F800000 := by
  have hlive : (liveEntries (mvSite b).vs).map (·.datum) = if b = true then [⟨some (exPoint 0x3F800000), some ⟨1, [7]⟩⟩] else [] := by
    cases b <;> rfl
  have hs : (Vec.getVectorComparisonFunction exBoth.scoreFuncName).eval exEnv.o [0x3F800000] [0] = F64.one := by decide +kernel
  have ho := mvSite_ok b
  constructor
  · rintro ⟨k, v, h1, h2, -, h4⟩
    have hk := (scan_out ho.wf ho.range ho.clock k v).2 h2
    rw [hlive] at hk
    cases b with
    | false => cases hk
    | true =>
      have hk := List.mem_singleton.1 hk
      injection hk with e1 e2
      injection e1 with e1
      injection e2 with e2
      subst e1; subst e2
      cases x
      simp only at h1 h4
      subst h1; subst h4
      exact ⟨rfl, by simp only [exFound, ← hs]; rfl⟩
  · rintro ⟨rfl, rfl⟩
    refine ⟨exPoint 0x3F800000, ⟨1, [7]⟩, rfl, ?_, ?_, hs.symm⟩
    · refine (scan_out ho.wf ho.range ho.clock _ _).1 ?_
      rw [hlive]
      exact List.mem_singleton.2 rfl
    · simp [Ref.Passes, exBoth, defaultSearchConfig]

/-- What the node that stores the datum finds, for evaluation. -/
def mvOwn : Option (List ScoredDatum) :=
  match streamSearch exEnv (mvSite true).vs (mvSite true).answer (mvSite true).dt ⟨some (exPoint 0), none⟩ (some { exBoth with timeout := 0 }) with
  | .ok (_, l) => some l
  | _ => none

theorem mvOwn_some {l : List ScoredDatum} (h : mvOwn = some l) : ∃ dt', streamSearch exEnv (mvSite true).vs (mvSite true).answer (mvSite true).dt
    ⟨some (exPoint 0), none⟩ (some { exBoth with timeout := 0 }) = .ok (dt', l) := by
  unfold mvOwn at h
  split at h
  · rename_i dt' l' heq
    injection h with h
    subst h
    exact ⟨_, heq⟩
  · cases h

theorem mvPair_six : ∀ v, (mvPair.next v).length ≤ 6 := by
  intro v
  unfold mvPair
  simp only
  split <;> simp

theorem mvP_hits {w : Nat → Site} (h : mvP w) :
    (∃ v, Intact mvPair 0 v ∧ HasHit exEnv exBoth (exPoint 0) (w v) (exFound F64.one 0x3F800000)) ∧
    ∀ v x, HasHit exEnv exBoth (exPoint 0) (w v) x → x.datum.key ∈ [some (exPoint 0x3F800000)] := by
  obtain ⟨a, b, rfl, h⟩ := h
  constructor
  · rcases h with rfl | rfl
    · exact ⟨0, .refl, (mv_hit true _).2 ⟨rfl, rfl⟩⟩
    · exact ⟨1, .step .refl (by simp [mvPair]) (by simp [mvPair]), (mv_hit true _).2 ⟨rfl, rfl⟩⟩
  · intro v x hx
    have : ∃ c, mvWorld a b v = mvSite c := by
      unfold mvWorld
      split
      · exact ⟨_, rfl⟩
      · split <;> exact ⟨_, rfl⟩
    obtain ⟨c, hc⟩ := this
    rw [hc] at hx
    rw [((mv_hit c x).1 hx).2]
    simp [exFound]

end Clu

/-- C200, counterexample: the first node searches before the copy arrives, the second after it has deleted the datum. -/
theorem C200_fails : ¬ C200_statement := by
  intro h
  obtain ⟨s, a, h1, h2, h3, -⟩ := mv_run false [] (exOwn_some (E := exEnv) (xs := []) (by decide +kernel)) (outOf_some (by decide +kernel))
    (outOf_some (by decide +kernel)) (fun got hg => List.perm_nil.1 hg)
  obtain ⟨y, hy, -⟩ := h exEnv exEnv_ok mvPair exBoth none 0 (exPoint 0) none (exFound F64.one 0x3F800000) s a [] mvPair_six (fun v hv => hv)
    (by decide) (by decide) rfl (by decide) mvP (fun w hw => (mvP_hits hw).1) [some (exPoint 0x3F800000)] (by decide)
    (fun w hw => (mvP_hits hw).2) h1 h2 h3
  cases hy

/-- Example: the copy arrives during the search; both nodes store the datum when the second node searches, and the search returns it. -/
theorem C200_example : ∃ s a, TReach exEnv ⟨some (exPoint 0), none⟩ mvPair false mvP exBoth 0 s ∧ s.search.ans 0 = some a ∧
    MultiOut exEnv exBoth none [a.found] [exFound F64.one 0x3F800000] ∧ s.seen 1 (mvSite true) ∧
    (∀ site, s.seen 1 site → HasHit exEnv exBoth (exPoint 0) site (exFound F64.one 0x3F800000)) ∧
    (∀ w, mvP w → ∀ v x, HasHit exEnv exBoth (exPoint 0) (w v) x → x.datum.key ∈ [some (exPoint 0x3F800000)]) ∧
    [some (exPoint 0x3F800000)].length ≤ Ref.asked exBoth := by
  obtain ⟨s, a, h1, h2, h3, h4⟩ := mv_run true [exFound F64.one 0x3F800000] (mvOwn_some (by decide +kernel)) (outOf_some (by decide +kernel))
    (outOf_some (by decide +kernel)) (fun got hg => List.perm_singleton.1 hg)
  refine ⟨s, a, h1, h2, h3, h4, ?_, fun w hw => (mvP_hits hw).2, by decide⟩
  intro site hs
  rw [← (t_inv h1).once rfl 1 (mvSite true) site h4 hs]
  exact (mv_hit true _).2 ⟨rfl, rfl⟩

end Veri
