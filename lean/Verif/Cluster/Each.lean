import Verif.Cluster.Several
import Verif.Cluster.Complete
/-
C203: each datum of a request is searched for at the node asked.
-/
set_option autoImplicit false
namespace Veri
namespace Clu
open Search Agg Ref Store

/-- Without time limits: what the search for one datum has found is what `AggOut` says, of the states of stores that were searched. -/
structure AInv (E : Env) (q : Datum) (C : Cluster) (config : SearchConfig) (i : Nat) (ts : List WTask) : Prop where
  root : ∃ t, ts[0]? = some t ∧ t.node = i ∧ t.config = config ∧ ∀ ks ps f o, t.phase = .over ks ps f o → ∃ site rest, ps = (i, site) :: rest
  conf : ∀ t ∈ ts, ∃ tm, t.config = { config with timeout := tm }
  few : ∀ t ∈ ts, t.phase.kids.length ≤ 6
  asked : ∀ t ∈ ts, ∀ site own ks, t.phase = .asked site own ks → C.holds t.node site ∧
    ∃ dt', streamSearch E site.vs site.answer site.dt q (some t.config) = .ok (dt', own)
  over : ∀ t ∈ ts, ∀ ks ps f o, t.phase = .over ks ps f o → AggOut E q t.config (ps.map (·.2)) f ∧ MultiOut E t.config none [f] o ∧
    ∀ p ∈ ps, C.holds p.1 p.2

theorem AInv.set {E : Env} {q : Datum} {C : Cluster} {config : SearchConfig} {i : Nat} {ts : List WTask} (hi : AInv E q C config i ts) {j : Nat}
    {t : WTask} (h : ts[j]? = some t) (ph : WPhase) (new : List WTask)
    (hn : ∀ x ∈ new, (∃ tm, x.config = { config with timeout := tm }) ∧ x.phase = .begun) (hf : ph.kids.length ≤ 6)
    (hr : j = 0 → ∀ ks ps f o, ph = .over ks ps f o → ∃ site rest, ps = (i, site) :: rest)
    (ha : ∀ site own ks, ph = .asked site own ks → C.holds t.node site ∧
      ∃ dt', streamSearch E site.vs site.answer site.dt q (some t.config) = .ok (dt', own))
    (ho : ∀ ks ps f o, ph = .over ks ps f o → AggOut E q t.config (ps.map (·.2)) f ∧ MultiOut E t.config none [f] o ∧ ∀ p ∈ ps, C.holds p.1 p.2) :
    AInv E q C config i (ts.set j { t with phase := ph } ++ new) := by
  have htm := List.mem_of_getElem? h
  have hm : ∀ x ∈ ts.set j { t with phase := ph } ++ new, x ∈ ts ∨ x = { t with phase := ph } ∨ x ∈ new := by
    intro x hx
    rcases List.mem_append.1 hx with hx | hx
    · exact (List.mem_or_eq_of_mem_set hx).imp id Or.inl
    · exact Or.inr (Or.inr hx)
  refine ⟨?_, ?_, ?_, ?_, ?_⟩
  · obtain ⟨t0, g1, g2, g3, g4⟩ := hi.root
    have hlt := (List.getElem?_eq_some_iff.1 g1).1
    rw [List.getElem?_append_left (by rw [List.length_set]; exact hlt), List.getElem?_set]
    by_cases e : j = 0
    · subst e
      rw [if_pos rfl, if_pos hlt]
      rw [h] at g1
      cases g1
      exact ⟨_, rfl, g2, g3, hr rfl⟩
    · rw [if_neg e]
      exact ⟨t0, g1, g2, g3, g4⟩
  · intro x hx
    rcases hm x hx with hx | rfl | hx
    · exact hi.conf x hx
    · exact hi.conf t htm
    · exact (hn x hx).1
  · intro x hx
    rcases hm x hx with hx | rfl | hx
    · exact hi.few x hx
    · exact hf
    · rw [(hn x hx).2]; exact Nat.zero_le _
  · intro x hx
    rcases hm x hx with hx | rfl | hx
    · exact hi.asked x hx
    · exact ha
    · intro site own ks he; rw [(hn x hx).2] at he; cases he
  · intro x hx
    rcases hm x hx with hx | rfl | hx
    · exact hi.over x hx
    · exact ho
    · intro ks ps f o he; rw [(hn x hx).2] at he; cases he

theorem ainv_serve {E : Env} {q : Datum} {C : Cluster} {config : SearchConfig} {i : Nat} {ts : List WTask} (hi : AInv E q C config i ts) {j : Nat}
    {t : WTask} (h1 : ts[j]? = some t) {site : Site} (h4 : C.holds t.node site) {dt' : Data} {own : List ScoredDatum}
    (h5 : streamSearch E site.vs site.answer site.dt q (some t.config) = .ok (dt', own)) {dsts : List Nat}
    (h6 : Picks (C.next t.node) dsts) (timeout : UInt64) :
    AInv E q C config i (ts.set j { t with phase := .asked site own (List.range' ts.length dsts.length) } ++
      dsts.map (fun d => ⟨d, { t.config with timeout := timeout }, .begun⟩)) := by
  obtain ⟨tm, hc⟩ := hi.conf t (List.mem_of_getElem? h1)
  refine hi.set h1 (.asked site own _) _ ?_ ?_ (by simp) ?_ (by simp)
  · intro x hx
    obtain ⟨d, hd, rfl⟩ := List.mem_map.1 hx
    exact ⟨⟨timeout, by simp only [hc]⟩, rfl⟩
  · obtain ⟨o, -, rfl⟩ := h6
    simp only [WPhase.kids, List.length_range', List.length_take]
    omega
  · intro site' own' ks he
    injection he with e1 e2 e3
    subst e1 e2
    exact ⟨h4, dt', h5⟩

theorem ainv_step {E : Env} {q : Datum} {C : Cluster} {config : SearchConfig} (hr : config.resultLimit.toNat < 2^63) {i : Nat} {s s' : WState}
    (hi : AInv E q C config i s.tasks) (h0 : ∀ t, s.tasks[0]? = some t → t.phase ≠ .begun) (h : GStep E q C false s s') :
    AInv E q C config i s'.tasks := by
  have hsilent : ∀ (j : Nat) (t : WTask), s.tasks[j]? = some t → t.phase = .begun →
      AInv E q C config i (s.tasks.set j { t with phase := .over [] [] [] [] }) := by
    intro j t h1 h2
    obtain ⟨tm, hc⟩ := hi.conf t (List.mem_of_getElem? h1)
    have := hi.set h1 (.over [] [] [] []) [] (by simp) (by simp [WPhase.kids]) (by
      intro e
      subst e
      exact absurd h2 (h0 t h1)) (by simp) (by
      intro ks ps f o he
      injection he with e1 e2 e3 e4
      subst e1 e2 e3 e4
      exact ⟨.silent _, silent_multi E (by rw [hc]; exact hr), by simp⟩)
    rwa [List.append_nil] at this
  cases h with
  | cut j t site own kids got found late sent order hf => cases hf
  | whole h =>
    cases h with
    | refuse j t h1 h2 h3 => exact hsilent j t h1 h2
    | fail j t notes h1 h2 h3 => exact hsilent j t h1 h2
    | serve j t site dt' own dsts timeout h1 h2 h3 h4 h5 h6 => exact ainv_serve hi h1 h4 h5 h6 timeout
    | reply j t site own kids as got found sent h1 h2 h3 h4 h5 h6 =>
      have htm := List.mem_of_getElem? h1
      have hkids : t.phase.kids = kids := by rw [h2]; rfl
      have hfew := hi.few t htm
      rw [hkids] at hfew
      obtain ⟨hh, dt', hown⟩ := hi.asked t htm site own kids h2
      have hpart : ∀ a ∈ as, ∃ x ∈ s.tasks, x.config = a.config ∧ ∃ ks, x.phase = .over ks a.parts a.found a.sent := by
        intro a ha
        have : some a ∈ kids.map s.ans := by rw [← h3]; exact List.mem_map_of_mem ha
        obtain ⟨k, -, hk⟩ := List.mem_map.1 this
        unfold WState.ans at hk
        split at hk
        · rename_i nd c ks ps f o hx
          cases hk
          exact ⟨_, List.mem_of_getElem? hx, rfl, ks, rfl⟩
        · cases hk
      have := hi.set h1 (.over kids ((t.node, site) :: as.flatMap (·.parts)) found sent) [] (by simp) hfew (by
        intro e ks ps f o he
        injection he with e1 e2 e3 e4
        subst e
        obtain ⟨t0, g1, g2, -⟩ := hi.root
        rw [h1] at g1
        cases g1
        exact ⟨site, _, by rw [← e2, g2]⟩) (by simp) (by
        intro ks ps f o he
        injection he with e1 e2 e3 e4
        subst e1 e2 e3 e4
        refine ⟨?_, h6, ?_⟩
        · have := AggOut.node (E := E) (q := q) t.config site dt' own (as.map fun a => ⟨a.config, a.parts.map (·.2), a.found, a.sent⟩) got found hown
            ?_ ?_ ?_ ?_ (by rw [List.map_map]; exact h4) h5
          · rw [List.flatMap_map] at this
            simpa [List.map_flatMap] using this
          · intro p hp
            obtain ⟨a, ha, rfl⟩ := List.mem_map.1 hp
            obtain ⟨x, hx, hc, -⟩ := hpart a ha
            obtain ⟨tm, h8⟩ := hi.conf x hx
            obtain ⟨tm', h9⟩ := hi.conf t htm
            exact ⟨tm, by show a.config = _; rw [← hc, h8, h9]⟩
          · intro p hp
            obtain ⟨a, ha, rfl⟩ := List.mem_map.1 hp
            obtain ⟨x, hx, hc, ks, he⟩ := hpart a ha
            have := (hi.over x hx _ _ _ _ he).1
            rw [hc] at this
            exact this
          · intro p hp
            obtain ⟨a, ha, rfl⟩ := List.mem_map.1 hp
            obtain ⟨x, hx, hc, ks, he⟩ := hpart a ha
            have := (hi.over x hx _ _ _ _ he).2.1
            rw [hc] at this
            exact this
          · have hl := congrArg List.length h3
            simp only [List.length_map] at hl ⊢
            omega
        · intro p hp
          rcases List.mem_cons.1 hp with rfl | hp
          · exact hh
          · obtain ⟨a, ha, hp⟩ := List.mem_flatMap.1 hp
            obtain ⟨x, hx, -, ks, he⟩ := hpart a ha
            exact (hi.over x hx _ _ _ _ he).2.2 p hp)
      rwa [List.append_nil] at this

theorem s_whole {E : Env} {D : List Datum} {C : Cluster} {anon : Bool} {config : SearchConfig} (hr : config.resultLimit.toNat < 2^63) {i : Nat}
    {s : SState} (h : SReach E D C false anon config i s) (j : Nat) (d : Datum) (hj : D[j]? = some d) : AInv E d C config i (s.tasks j) := by
  induction h with
  | start =>
    simp only [SState.start, if_pos (List.getElem?_eq_some_iff.1 hj).1]
    refine ⟨⟨_, rfl, rfl, rfl, by intro ks ps f o he; cases he⟩, ?_, ?_, ?_, ?_⟩
    all_goals intro t ht; rw [List.mem_singleton.1 ht]
    · exact ⟨_, rfl⟩
    · exact Nat.zero_le _
    · intro site own ks he; cases he
    · intro ks ps f o he; cases he
  | @step s s' _ h ih =>
    cases h with
    | root k d' c site dt' own dsts timeout h1 h2 h3 h4 h5 =>
      show AInv E d C config i (s.put k _ j)
      by_cases e : j = k
      · subst e
        rw [hj] at h1
        cases h1
        rw [h2] at ih
        have := ainv_serve ih (j := 0) (t := ⟨i, c, .begun⟩) rfl h3 h4 h5 timeout
        simpa [SState.put] using this
      · simpa [SState.put, e] using ih
    | act k d' w h1 h2 h3 =>
      show AInv E d C config i (s.put k _ j)
      by_cases e : j = k
      · subst e
        rw [hj] at h1
        cases h1
        have := ainv_step hr ih h2 h3
        simpa [SState.put] using this
      · simpa [SState.put, e] using ih

/-- data/search.go:267-298: what the client gets if all searches have ended. -/
def SFull (E : Env) (config : SearchConfig) (context : Option SearchContext) (D : List Datum) (s : SState) (out : List ScoredDatum) : Prop :=
  ∃ as : List WAns, as.map some = (List.range D.length).map (fun j => WState.ans ⟨s.tasks j, []⟩ 0) ∧
    MultiOut E config context (as.map (·.found)) out

/-- It is one of the answers of `SAnswer`. -/
theorem full_answer {E : Env} {config : SearchConfig} {context : Option SearchContext} {D : List Datum} {s : SState} {out : List ScoredDatum}
    (h : SFull E config context D s out) : SAnswer E config context s out := by
  obtain ⟨as, h1, got, order, h2, h3, h4⟩ := h
  refine ⟨got, order, fun x hx => ?_, h3, h4⟩
  obtain ⟨l, hl, hx⟩ := List.mem_flatten.1 ((collects_perm h2).mem_iff.2 hx)
  obtain ⟨a, ha, rfl⟩ := List.mem_map.1 hl
  have : some a ∈ (List.range D.length).map (fun j => WState.ans ⟨s.tasks j, []⟩ 0) := by rw [← h1]; exact List.mem_map_of_mem ha
  obtain ⟨j, -, hj⟩ := List.mem_map.1 this
  exact ⟨j, a, hj, hx⟩

end Clu
open Clu Search Store Agg

/-- **C203.**  Without time limits and with room for all: each datum of a request is searched for at the node asked, though other nodes answer for only one of
them (C96): every match of every datum, among what the node stores, is in the answer. -/
theorem C203_own (E : Env) (hE : E.Ok) (qs : List (DatumKey × Option DatumValue)) (C : Cluster) (anon : Bool) (config : SearchConfig)
    (context : Option SearchContext) (i : Nat) (s : SState)
    (hs : SReach E (qs.map fun q => ⟨some q.1, q.2⟩) C false anon config i s) (out : List ScoredDatum) (hl : 0 < config.limit)
    (hg : config.groupLimit = 0) (hr : config.resultLimit.toNat < 2^63) (hname : ¬ "Annoy".toList <+: config.scoreFuncName.toList)
    (hok : ∀ v site, C.holds v site → site.Ok) (keys : List (Option DatumKey)) (hroom : keys.length * qs.length ≤ Ref.asked config)
    (hk : ∀ v site, C.holds v site → ∀ q ∈ qs, ∀ x, Ref.IsHit E config q.1 (Ref.shows (Store.abs site.dt.dbMap) site.clock) x → x.datum.key ∈ keys)
    (ho : SFull E config context (qs.map fun q => ⟨some q.1, q.2⟩) s out) :
    ∀ q ∈ qs, ∃ site, C.holds i site ∧
      ∀ x, Ref.IsHit E config q.1 (Ref.shows (Store.abs site.dt.dbMap) site.clock) x → ∃ y ∈ out, y.datum.key = x.datum.key := by
  obtain ⟨as, h1, h2⟩ := ho
  have hlen : as.length = qs.length := by
    have := congrArg List.length h1
    simpa using this
  have hat : ∀ (j : Nat) (q : DatumKey × Option DatumValue) (a : WAns), qs[j]? = some q → as[j]? = some a →
      AggOut E ⟨some q.1, q.2⟩ config (a.parts.map (·.2)) a.found ∧ (∀ p ∈ a.parts, C.holds p.1 p.2) ∧
        ∃ site rest, a.parts = (i, site) :: rest := by
    intro j q a hj ha
    have hi := s_whole hr hs j ⟨some q.1, q.2⟩ (by rw [List.getElem?_map, hj]; rfl)
    have hj' : WState.ans ⟨s.tasks j, []⟩ 0 = some a := by
      have := congrArg (·[j]?) h1
      have hjl := (List.getElem?_eq_some_iff.1 hj).1
      simp only [List.getElem?_map, ha, List.length_map, List.getElem?_range hjl, Option.map_some, Option.some.injEq] at this
      exact this.symm
    unfold WState.ans at hj'
    split at hj'
    · rename_i nd c ks ps f o hx
      cases hj'
      obtain ⟨t, g1, g2, g3, g4⟩ := hi.root
      rw [hx] at g1
      cases g1
      obtain ⟨o1, -, o2⟩ := hi.over _ (List.mem_of_getElem? hx) ks ps f o rfl
      rw [g3] at o1
      exact ⟨o1, o2, g4 ks ps f o rfl⟩
    · cases hj'
  have hzip : ∀ p ∈ qs.zip (as.map fun (a : WAns) => (a.parts.map (·.2), a.found)), ∃ (j : Nat) (a : WAns), qs[j]? = some p.1 ∧ as[j]? = some a ∧
      p.2 = (a.parts.map (·.2), a.found) := by
    intro p hp
    obtain ⟨j, hj⟩ := List.getElem?_of_mem hp
    rw [List.getElem?_zip_eq_some] at hj
    obtain ⟨h3, h4⟩ := hj
    rw [List.getElem?_map, Option.map_eq_some_iff] at h4
    obtain ⟨a, h4, h5⟩ := h4
    exact ⟨j, a, h3, h4, h5.symm⟩
  have hout : SearchOut E config context (qs.map fun q => ⟨some q.1, q.2⟩) (as.map fun (a : WAns) => (a.parts.map (·.2), a.found)) out := by
    refine ⟨by simp [hlen], ?_, ?_⟩
    · intro p hp
      rw [List.zip_map_left] at hp
      obtain ⟨p', hp', rfl⟩ := List.mem_map.1 hp
      obtain ⟨j, a, e1, e2, e3⟩ := hzip p' hp'
      have := (hat j _ a e1 e2).1
      simp only [Prod.map, e3, id]
      exact this
    · rw [List.map_map]
      exact h2
  obtain ⟨g, -, -⟩ := C168_all_returned E hE config context qs (as.map fun (a : WAns) => (a.parts.map (·.2), a.found)) out hl hg hname
    (by
      intro p hp st hst
      obtain ⟨a, ha, rfl⟩ := List.mem_map.1 hp
      obtain ⟨j, hj⟩ := List.getElem?_of_mem ha
      have hjl := (List.getElem?_eq_some_iff.1 hj).1
      obtain ⟨-, h3, -⟩ := hat j qs[j] a (List.getElem?_eq_getElem (by omega)) hj
      obtain ⟨p, hp, rfl⟩ := List.mem_map.1 hst
      exact hok _ _ (h3 p hp)) keys hroom
    (by
      intro p hp x hx
      obtain ⟨j, a, e1, e2, e3⟩ := hzip p hp
      obtain ⟨-, h3, -⟩ := hat j _ a e1 e2
      rw [e3] at hx
      obtain ⟨sh, hsh, hx⟩ := hx
      obtain ⟨st, hst, rfl⟩ := List.mem_map.1 hsh
      obtain ⟨pp, hpp, rfl⟩ := List.mem_map.1 hst
      exact hk _ _ (h3 pp hpp) _ (List.mem_of_getElem? e1) x hx) hout
  intro q hq
  obtain ⟨j, hj⟩ := List.getElem?_of_mem hq
  have hjl := (List.getElem?_eq_some_iff.1 hj).1
  have ha : as[j]? = some as[j] := List.getElem?_eq_getElem (by omega)
  obtain ⟨-, h3, site, rest, h4⟩ := hat j q as[j] hj ha
  refine ⟨site, h3 (i, site) (by rw [h4]; exact List.mem_cons_self), fun x hx => ?_⟩
  refine g (q, (as[j].parts.map (·.2), as[j].found)) ?_ x ⟨⟨site.dt.dbMap, site.clock⟩, ?_, hx⟩
  · apply List.mem_of_getElem? (i := j)
    rw [List.getElem?_zip_eq_some]
    exact ⟨hj, by rw [List.getElem?_map, ha]; rfl⟩
  · show _ ∈ shelves (as[j].parts.map (·.2))
    rw [h4]
    exact List.mem_cons_self

namespace Clu

/-- Two nodes: the second one is a source of the first one. -/
def exPair : Cluster where
  next v := if v = 1 then [2] else []
  holds v site := v = 1 ∧ site = exSite [0x3F800000] ∨ v = 2 ∧ site = exSite [0x40000000]
  faulty _ := False

def exFour : SearchConfig := { defaultSearchConfig with limit := 4 }

theorem four_ok {l : List ScoredDatum} (h : Ref.Keyed l) : ∃ out, flatMerge exEnv exFour none l = .ok out := by
  obtain ⟨a, h1, h2, -⟩ := insertAll_ok exEnv_ok.sort l (newFlat exFour none) (by decide) rfl h (by simp [newFlat]) (by simp [newFlat])
  refine ⟨a.list, ?_⟩
  unfold flatMerge
  rw [h1, Res.bind_ok, result_eq, if_pos]
  rw [h2.1]
  rfl

theorem four_multi {l : List ScoredDatum} (h : Ref.Keyed l) : ∃ out, MultiOut exEnv exFour none [l] out := by
  obtain ⟨got, hg⟩ := collects_exists [l]
  obtain ⟨out, ho⟩ := four_ok (l := got) fun x hx => h x ((collects_one hg).mem_iff.1 hx)
  exact ⟨out, got, id, hg, fun m => .refl m, by rw [multiMerge, if_neg (by decide)]; exact ho⟩

theorem four_sub {l out : List ScoredDatum} (h : Ref.Keyed l) (ho : flatMerge exEnv exFour none l = .ok out) : Ref.Keyed out :=
  fun x hx => h x ((flatMerge_sub exEnv_ok (by decide) h ho).1 x hx)

theorem keyed_found {s : F64} {x : F32} : Ref.Keyed [exFound s x] := by
  intro y hy
  rw [List.mem_singleton.1 hy]
  exact ⟨_, _, rfl⟩

theorem keyed_collects {ls : List (List ScoredDatum)} {got : List ScoredDatum} (h : ∀ l ∈ ls, Ref.Keyed l) (hg : Collects ls got) : Ref.Keyed got := by
  intro x hx
  obtain ⟨l, hl, hx⟩ := List.mem_flatten.1 ((collects_perm hg).mem_iff.2 hx)
  exact h l hl x hx

theorem ex_full {C : Cluster} {slow : Bool} {config : SearchConfig} {a b : List WTask} {n : List Nat} (_ : ExRun C slow config a b n) {a0 a1 : WAns}
    (h0 : WState.ans ⟨a, []⟩ 0 = some a0) (h1 : WState.ans ⟨b, []⟩ 0 = some a1) {out : List ScoredDatum}
    (h : MultiOut exEnv config none [a0.found, a1.found] out) : SFull exEnv config none exTwoPoints ⟨exTasks a b, n⟩ out := by
  refine ⟨[a0, a1], ?_, h⟩
  show [some a0, some a1] = [WState.ans ⟨a, []⟩ 0, WState.ans ⟨b, []⟩ 0]
  rw [h0, h1]

theorem ex_key {config : SearchConfig} {q : DatumKey} {ys : List F32} (hnd : ys.Nodup) {x : ScoredDatum}
    (h : Ref.IsHit exEnv config q (Ref.shows (Store.abs (exSite ys).dt.dbMap) (exSite ys).clock) x) : ∃ y ∈ ys, x.datum.key = some (exPoint y) := by
  obtain ⟨k, v, h1, h2, -⟩ := h
  have hk := (scan_out (exSite_ok ys hnd).wf (exSite_ok ys hnd).range (exSite_ok ys hnd).clock k v).2 h2
  rw [show (exSite ys).vs = exVisits ys from rfl, exLive] at hk
  obtain ⟨y, hy, hyk⟩ := List.mem_map.1 hk
  injection hyk with e1 e2
  exact ⟨y, hy, by rw [h1, ← e1]⟩

end Clu

/-- C203 at work: of two nodes the first one is asked for two points; its source searches for the second point and refuses the search for the first one.  The
answer has the point of the node asked. -/
theorem C203_example : ∃ s out, SReach exEnv exTwoPoints exPair false true exFour 1 s ∧ SFull exEnv exFour none exTwoPoints s out ∧
    (s.tasks 0)[1]? = some ⟨2, exFour, .over [] [] [] []⟩ ∧ ∃ y ∈ out, y.datum.key = some (exPoint 0x3F800000) := by
  obtain ⟨d0, o0⟩ := exOwnAt_some (config := exFour) (q := 0) (xs := [0x3F800000]) (l := [exFound F64.one 0x3F800000]) (by decide +kernel)
  obtain ⟨d1, o1⟩ := exOwnAt_some (config := exFour) (q := 0x40000000) (xs := [0x3F800000]) (l := [exFound F64.one 0x3F800000]) (by decide +kernel)
  obtain ⟨d2, o2⟩ := exOwnAt_some (config := exFour) (q := 0x40000000) (xs := [0x40000000]) (l := [exFound 0 0x40000000]) (by decide +kernel)
  have r1 := ex_root0 (C := exPair) (slow := false) ex_start (.inl ⟨rfl, rfl⟩) o0 (dsts := [2]) ⟨[2], .refl _, rfl⟩ exFour.timeout
  have r2 := ex_root1 r1 (.inl ⟨rfl, rfl⟩) o1 (dsts := [2]) ⟨[2], .refl _, rfl⟩ exFour.timeout
  have r3 := ex_act1 r2 (by simp) (.whole (.serve 1 ⟨2, exFour, .begun⟩ (exSite [0x40000000]) d2
    [exFound 0 0x40000000] [] 0 rfl rfl (by simp) (.inr ⟨rfl, rfl⟩) o2 ⟨[], .refl _, rfl⟩))
  have r4 := ex_act0 r3 (by simp) (.whole (.refuse 1 ⟨2, exFour, .begun⟩ rfl rfl (by simp)))
  obtain ⟨g5, c5⟩ := collects_exists [[exFound 0 0x40000000]]
  have k5 : Ref.Keyed g5 := keyed_collects (by intro l hl; rw [List.mem_singleton.1 hl]; exact keyed_found) c5
  obtain ⟨f5, m5⟩ := four_ok k5
  obtain ⟨s5, n5⟩ := four_multi (four_sub k5 m5)
  have ks5 : Ref.Keyed s5 := by
    obtain ⟨got, order, h1, -, h2⟩ := n5
    rw [multiMerge, if_neg (by decide)] at h2
    exact four_sub (fun x hx => four_sub k5 m5 x ((collects_one h1).mem_iff.1 hx)) h2
  have r5 := ex_act1 r4 (by simp) (.whole (.reply 1 ⟨2, exFour, .asked (exSite [0x40000000]) [exFound 0 0x40000000] []⟩ _ _ _ [] g5 f5 s5 rfl rfl rfl c5 m5 n5))
  obtain ⟨g6, c6⟩ := collects_exists [[exFound F64.one 0x3F800000], s5]
  have k6 : Ref.Keyed g6 := keyed_collects (by
    intro l hl
    rcases List.mem_cons.1 hl with rfl | hl
    · exact keyed_found
    · rw [List.mem_singleton.1 hl]; exact ks5) c6
  obtain ⟨f6, m6⟩ := four_ok k6
  obtain ⟨s6, n6⟩ := four_multi (four_sub k6 m6)
  have r6 := ex_act1 r5 (by simp) (.whole (.reply 0 ⟨1, exFour, .asked (exSite [0x3F800000]) [exFound F64.one 0x3F800000] [1]⟩ _ _ _
    [⟨exFour, [(2, exSite [0x40000000])], f5, s5⟩] g6 f6 s6 rfl rfl rfl c6 m6 n6))
  obtain ⟨g7, c7⟩ := collects_exists [[exFound F64.one 0x3F800000], []]
  have k7 : Ref.Keyed g7 := keyed_collects (by
    intro l hl
    rcases List.mem_cons.1 hl with rfl | hl
    · exact keyed_found
    · rw [List.mem_singleton.1 hl]; intro x hx; cases hx) c7
  obtain ⟨f7, m7⟩ := four_ok k7
  obtain ⟨s7, n7⟩ := four_multi (four_sub k7 m7)
  have r7 := ex_act0 r6 (by simp) (.whole (.reply 0 ⟨1, exFour, .asked (exSite [0x3F800000]) [exFound F64.one 0x3F800000] [1]⟩ _ _ _
    [⟨exFour, [], [], []⟩] g7 f7 s7 rfl rfl rfl c7 m7 n7))
  obtain ⟨g8, c8⟩ := collects_exists [f7, f6]
  have k8 : Ref.Keyed g8 := keyed_collects (by
    intro l hl
    rcases List.mem_cons.1 hl with rfl | hl
    · exact four_sub k7 m7
    · rw [List.mem_singleton.1 hl]; exact four_sub k6 m6) c8
  obtain ⟨out, m8⟩ := four_ok k8
  have hfull := ex_full r7 (a0 := ⟨exFour, [(1, exSite [0x3F800000])], f7, s7⟩)
    (a1 := ⟨exFour, [(1, exSite [0x3F800000]), (2, exSite [0x40000000])], f6, s6⟩) rfl rfl (out := out)
    ⟨g8, id, c8, fun m => .refl m, by rw [multiMerge, if_neg (by decide)]; exact m8⟩
  refine ⟨_, out, r7, hfull, rfl, ?_⟩
  have hok : ∀ v site, exPair.holds v site → site.Ok := by
    rintro v site (⟨-, rfl⟩ | ⟨-, rfl⟩) <;> exact exSite_ok _ (by decide)
  obtain ⟨site, h1, h2⟩ := C203_own exEnv exEnv_ok [(exPoint 0, none), (exPoint 0x40000000, none)] exPair true exFour none 1 _ r7 out (by decide) rfl
    (by decide) (by decide) hok [some (exPoint 0x3F800000), some (exPoint 0x40000000)] (by decide) (by
      rintro v site (⟨-, rfl⟩ | ⟨-, rfl⟩) q - x hx
      · obtain ⟨y, hy, e⟩ := ex_key (by decide) hx
        rw [e, List.mem_singleton.1 hy]; exact List.mem_cons_self
      · obtain ⟨y, hy, e⟩ := ex_key (by decide) hx
        rw [e, List.mem_singleton.1 hy]; exact List.mem_cons_of_mem _ List.mem_cons_self) hfull (exPoint 0, none) List.mem_cons_self
  rcases h1 with ⟨-, rfl⟩ | ⟨h1, -⟩
  · obtain ⟨sh, hsh, hx⟩ := (exHits (config := exFour) rfl rfl (xss := [[0x3F800000]]) (by decide) (exFound F64.one 0x3F800000)).2
      ⟨_, List.mem_cons_self, 0x3F800000, List.mem_cons_self, by decide +kernel⟩
    rw [show shelves ([[0x3F800000]].map exSite) = [⟨(exSite [0x3F800000]).dt.dbMap, (exSite [0x3F800000]).clock⟩] from rfl, List.mem_singleton] at hsh
    subst hsh
    exact h2 _ hx
  · cases h1

end Veri
