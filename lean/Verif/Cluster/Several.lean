import Verif.Cluster.Cached
/-
C202: searches of the whole cluster for several data, with groups and a search context, with time limits.
-/
set_option autoImplicit false
namespace Veri
namespace Agg
open Search

theorem insertToList_data {E : Env} (hE : IsSort E.sort) {P : Datum → Prop} {a a' : Flat} {sd : ScoredDatum} (ha : ∀ x ∈ a.list, P x.datum)
    (hs : P sd.datum) (h : a.insertToList E sd = .ok a') : ∀ x ∈ a'.list, P x.datum := by
  unfold Flat.insertToList at h
  split at h
  · injection h with h; subst h
    intro x hx
    rcases List.mem_append.1 ((hE.perm _ _).mem_iff.1 hx) with hx | hx
    · exact ha x hx
    · rw [List.mem_singleton.1 hx]; exact hs
  · cases hg : a.list.getLast? with
    | none => rw [hg] at h; cases h
    | some last =>
      rw [hg] at h
      simp only [Res.ofOption_some, Res.bind_ok] at h
      split at h
      · injection h with h; subst h
        intro x hx
        rcases List.mem_append.1 ((hE.perm _ _).mem_iff.1 hx) with hx | hx
        · exact ha x (List.mem_of_mem_dropLast hx)
        · rw [List.mem_singleton.1 hx]; exact hs
      · injection h with h; subst h; exact ha

theorem insert_data {E : Env} (hE : IsSort E.sort) {P : Datum → Prop} {a a' : Flat} {sd : ScoredDatum} (ha : ∀ x ∈ a.list, P x.datum)
    (hs : P sd.datum) (h : a.insert E sd = .ok a') : ∀ x ∈ a'.list, P x.datum := by
  unfold Flat.insert at h
  cases hb : bestScore E.o a.config a.context sd with
  | panic => rw [hb] at h; cases h
  | err e => rw [hb] at h; cases h
  | ok s =>
    rw [hb, Res.bind_ok] at h
    unfold Flat.insertScored at h
    cases hk : getKeyAsBytes sd.datum with
    | none => simp only [hk] at h; cases h
    | some kb =>
      simp only [hk, Res.ofOption_some, Res.bind_ok] at h
      split at h
      · split at h
        · exact insertToList_data hE (a := { a with seen := a.seen.set (encodeToString kb) s }) (sd := { sd with score := s }) ha hs h
        · injection h with h; subst h; exact ha
      · exact insertToList_data hE (a := { a with seen := a.seen.set (encodeToString kb) s }) (sd := { sd with score := s }) ha hs h

theorem insertAll_data {E : Env} (hE : IsSort E.sort) {P : Datum → Prop} : ∀ (sds : List ScoredDatum) (a a' : Flat), (∀ x ∈ a.list, P x.datum) →
    (∀ x ∈ sds, P x.datum) → a.insertAll E sds = .ok a' → ∀ x ∈ a'.list, P x.datum
  | [], a, a', ha, _, h => by
    simp only [Flat.insertAll, Res.ok.injEq] at h
    subst h; exact ha
  | sd :: sds, a, a', ha, hs, h => by
    rw [Flat.insertAll] at h
    cases hi : a.insert E sd with
    | panic => rw [hi] at h; cases h
    | err e => rw [hi] at h; cases h
    | ok a1 =>
      rw [hi] at h
      exact insertAll_data hE sds a1 a' (insert_data hE ha (hs sd List.mem_cons_self) hi) (fun x hx => hs x (List.mem_cons_of_mem _ hx)) h

theorem one_data {o : FOps F32 F64} {P : Datum → Prop} {a : Flat} {sd : ScoredDatum} (ha : ∀ x ∈ a.list, P x.datum) (h : a.one o = some sd) :
    P sd.datum := by
  unfold Flat.one at h
  split at h
  · cases h
  · rename_i x l hx
    have := ha x (by rw [hx]; exact List.mem_cons_self)
    split at h
    · injection h with h; subst h; exact this
    · injection h with h; subst h; exact this

theorem insertOnes_data {E : Env} (hE : IsSort E.sort) {P : Datum → Prop} : ∀ (gs : List Flat) (a a' : Flat), (∀ x ∈ a.list, P x.datum) →
    (∀ g ∈ gs, ∀ x ∈ g.list, P x.datum) → insertOnes E a gs = .ok a' → ∀ x ∈ a'.list, P x.datum
  | [], a, a', ha, _, h => by
    simp only [insertOnes, Res.ok.injEq] at h
    subst h; exact ha
  | g :: gs, a, a', ha, hs, h => by
    rw [insertOnes] at h
    cases ho : g.one E.o with
    | none => rw [ho] at h; cases h
    | some sd =>
      rw [ho] at h
      simp only [Res.ofOption_some, Res.bind_ok] at h
      cases hi : a.insert E sd with
      | panic => rw [hi] at h; cases h
      | err e => rw [hi] at h; cases h
      | ok a1 =>
        rw [hi] at h
        exact insertOnes_data hE gs a1 a' (insert_data hE ha (one_data (hs g List.mem_cons_self) ho) hi)
          (fun x hx => hs x (List.mem_cons_of_mem _ hx)) h

theorem groupInsert_data {E : Env} (hE : IsSort E.sort) {P : Datum → Prop} {a a' : Grouped} {sd : ScoredDatum}
    (ha : ∀ p ∈ a.groups, ∀ x ∈ p.2.list, P x.datum) (hs : P sd.datum) (h : a.insert E sd = .ok a') :
    a'.config = a.config ∧ ∀ p ∈ a'.groups, ∀ x ∈ p.2.list, P x.datum := by
  unfold Grouped.insert at h
  cases hb : bestScore E.o a.config a.context sd with
  | panic => rw [hb] at h; cases h
  | err e => rw [hb] at h; cases h
  | ok s =>
    rw [hb, Res.bind_ok] at h
    cases hk : sd.datum.key with
    | none => simp only [hk] at h; cases h
    | some k =>
      simp only [hk, Res.ofOption_some, Res.bind_ok] at h
      cases hi : (a.group (encodeToString k.groupLabel)).insert E { sd with score := s } with
      | panic => simp only [hi] at h; cases h
      | err e => simp only [hi] at h; cases h
      | ok g =>
        simp only [hi, Res.bind_ok, Res.ok.injEq] at h
        subst h
        refine ⟨rfl, fun p hp => ?_⟩
        have hg : ∀ x ∈ (a.group (encodeToString k.groupLabel)).list, P x.datum := by
          unfold Grouped.group
          split
          · rename_i g' hg'
            exact ha _ (AMap.mem_of_get? hg')
          · intro x hx; cases hx
        rcases (AMap.mem_set _ _ _ _).1 hp with hp | hp
        · rw [hp]; exact insert_data hE (sd := { sd with score := s }) hg hs hi
        · exact ha p hp.1

theorem groupAll_data {E : Env} (hE : IsSort E.sort) {P : Datum → Prop} : ∀ (sds : List ScoredDatum) (a a' : Grouped),
    (∀ p ∈ a.groups, ∀ x ∈ p.2.list, P x.datum) → (∀ x ∈ sds, P x.datum) → a.insertAll E sds = .ok a' →
    a'.config = a.config ∧ ∀ p ∈ a'.groups, ∀ x ∈ p.2.list, P x.datum
  | [], a, a', ha, _, h => by
    simp only [Grouped.insertAll, Res.ok.injEq] at h
    subst h; exact ⟨rfl, ha⟩
  | sd :: sds, a, a', ha, hs, h => by
    rw [Grouped.insertAll] at h
    cases hi : a.insert E sd with
    | panic => rw [hi] at h; cases h
    | err e => rw [hi] at h; cases h
    | ok a1 =>
      rw [hi] at h
      obtain ⟨h1, h2⟩ := groupInsert_data hE ha (hs sd List.mem_cons_self) hi
      obtain ⟨h3, h4⟩ := groupAll_data hE sds a1 a' h2 (fun x hx => hs x (List.mem_cons_of_mem _ hx)) h
      exact ⟨h3.trans h1, h4⟩

theorem result_data {P : Datum → Prop} {a : Flat} {out : List ScoredDatum} (ha : ∀ x ∈ a.list, P x.datum) (h : a.result = .ok out) :
    ∀ x ∈ out, P x.datum := by
  rw [result_eq] at h
  split at h
  · injection h with h; subst h; exact ha
  · split at h
    · cases h
    · injection h with h; subst h
      exact fun x hx => ha x (List.mem_of_mem_take hx)

end Agg
namespace Clu
open Search Agg Ref Store

/-- All data of a merged result, with any configuration and context, have come in. -/
theorem flatMerge_data {E : Env} (hE : IsSort E.sort) {P : Datum → Prop} {config : SearchConfig} {context : Option SearchContext}
    {got out : List ScoredDatum} (hg : ∀ x ∈ got, P x.datum) (h : flatMerge E config context got = .ok out) : ∀ x ∈ out, P x.datum := by
  unfold flatMerge at h
  cases hi : (newFlat config context).insertAll E got with
  | panic => rw [hi] at h; cases h
  | err e => rw [hi] at h; cases h
  | ok a =>
    rw [hi, Res.bind_ok] at h
    exact result_data (insertAll_data hE got _ _ (by intro x hx; cases hx) hg hi) h

theorem multiMerge_data {E : Env} (hE : IsSort E.sort) {P : Datum → Prop} {config : SearchConfig} {context : Option SearchContext}
    {order : AMap Bytes Flat → AMap Bytes Flat} (ho : ∀ m, (order m).Perm m) {got out : List ScoredDatum} (hg : ∀ x ∈ got, P x.datum)
    (h : multiMerge E config context order got = .ok out) : ∀ x ∈ out, P x.datum := by
  unfold multiMerge at h
  split at h
  · cases hi : (newGrouped config context).insertAll E got with
    | panic => rw [hi] at h; cases h
    | err e => rw [hi] at h; cases h
    | ok a =>
      rw [hi, Res.bind_ok] at h
      obtain ⟨-, h2⟩ := groupAll_data hE got _ _ (by intro p hp; cases hp) hg hi
      unfold Grouped.result at h
      cases hj : insertOnes E (newFlat a.config a.context) ((order a.groups).map (·.2)) with
      | panic => rw [hj] at h; cases h
      | err e => rw [hj] at h; cases h
      | ok f =>
        rw [hj, Res.bind_ok] at h
        refine result_data (insertOnes_data hE _ _ _ (by intro x hx; cases hx) ?_ hj) h
        intro g hgm
        obtain ⟨p, hp, rfl⟩ := List.mem_map.1 hgm
        exact h2 p ((ho _).mem_iff.1 hp)
  · exact flatMerge_data hE hg h

/-- The size of a merged result. -/
theorem multiMerge_len {E : Env} (hE : E.Ok) {config : SearchConfig} {context : Option SearchContext}
    {order : AMap Bytes Flat → AMap Bytes Flat} {got out : List ScoredDatum}
    (h : multiMerge E config context order got = .ok out) : out.length ≤ Ref.asked config := by
  have key : out.length ≤ config.limit.toNat ∧ (config.resultLimit ≠ 0 → out.length ≤ config.resultLimit.toNat) := by
    unfold multiMerge at h
    split at h
    · cases hi : (newGrouped config context).insertAll E got with
      | panic => rw [hi] at h; cases h
      | err e => rw [hi] at h; cases h
      | ok a =>
        rw [hi, Res.bind_ok] at h
        obtain ⟨h1, -⟩ := groupAll_data (P := fun _ => True) hE.sort got _ _ (fun _ _ _ _ => trivial) (fun _ _ => trivial) hi
        have := C31_grouped_result_bounded E hE a _ out h
        rw [h1] at this
        exact this
    · unfold flatMerge at h
      cases hi : (newFlat config context).insertAll E got with
      | panic => rw [hi] at h; cases h
      | err e => rw [hi] at h; cases h
      | ok a =>
        rw [hi, Res.bind_ok] at h
        have := C31_result_bounded E hE config context got a out hi h
        exact ⟨this.1, this.2.1⟩
  unfold Ref.asked
  split
  · exact key.1
  · rename_i h0
    have := key.2 h0
    omega

/-- The steps of the search for one of the data, with groups; `slow`: time limits may be reached. -/
inductive GStep (E : Env) (q : Datum) (C : Cluster) (slow : Bool) : WState → WState → Prop
  | whole {s s' : WState} : WStep E q C true s s' → GStep E q C slow s s'
  /-- data/search.go:220-223 and 286-289: the time is up at a node (`LStep.cut`); what it sends on it groups, if asked to (data/search.go:270-273). -/
  | cut {s : WState} (j : Nat) (t : WTask) (site : Site) (own : List ScoredDatum) (kids : List Nat) (got found late sent : List ScoredDatum)
      (order : AMap Bytes Flat → AMap Bytes Flat) :
      slow = true → s.tasks[j]? = some t → t.phase = .asked site own kids →
      (∀ x ∈ got, x ∈ own ∨ ∃ k ∈ kids, ∃ a, s.ans k = some a ∧ x ∈ a.sent) → flatMerge E t.config none got = .ok found →
      (∀ x ∈ late, x ∈ found) → (∀ m, (order m).Perm m) → multiMerge E t.config none order late = .ok sent →
      GStep E q C slow s { s with tasks := s.tasks.set j { t with phase := .over kids [] found sent } }

/-- The searches for the data of one request, by their position in it, and the nodes that have noted its id. -/
structure SState where
  tasks : Nat → List WTask
  noted : List Nat

def SState.put (s : SState) (j : Nat) (l : List WTask) : Nat → List WTask := fun k => if k = j then l else s.tasks k

/-- data/search.go:254-266, node/nodeservice.go:118-143: the node asked has checked the id, if the client has given one, and starts a search for each
datum. -/
def SState.start (D : List Datum) (anon : Bool) (config : SearchConfig) (i : Nat) : SState :=
  ⟨fun j => if j < D.length then [⟨i, config, .begun⟩] else [], if anon then [] else [i]⟩

inductive SStep (E : Env) (D : List Datum) (C : Cluster) (slow : Bool) (i : Nat) : SState → SState → Prop
  /-- data/search.go:184-200: the node asked searches for one of the data and asks sources, all with the same id. -/
  | root {s : SState} (j : Nat) (d : Datum) (c : SearchConfig) (site : Site) (dt' : Data) (own : List ScoredDatum) (dsts : List Nat) (timeout : UInt64) :
      D[j]? = some d → s.tasks j = [⟨i, c, .begun⟩] → C.holds i site →
      streamSearch E site.vs site.answer site.dt d (some c) = .ok (dt', own) → Picks (C.next i) dsts →
      SStep E D C slow i s { s with tasks := s.put j (⟨i, c, .asked site own (List.range' 1 dsts.length)⟩ ::
        dsts.map (fun v => ⟨v, { c with timeout := timeout }, .begun⟩)) }
  /-- A step of the search for one of the data.  A node that has noted the id for another one refuses it (C96). -/
  | act {s : SState} (j : Nat) (d : Datum) (w : WState) : D[j]? = some d → (∀ t, (s.tasks j)[0]? = some t → t.phase ≠ .begun) →
      GStep E d C slow ⟨s.tasks j, s.noted⟩ w → SStep E D C slow i s ⟨s.put j w.tasks, w.noted⟩

inductive SReach (E : Env) (D : List Datum) (C : Cluster) (slow anon : Bool) (config : SearchConfig) (i : Nat) : SState → Prop
  | start : SReach E D C slow anon config i (.start D anon config i)
  | step {s s' : SState} : SReach E D C slow anon config i s → SStep E D C slow i s s' → SReach E D C slow anon config i s'

/-- data/search.go:267-298: what the client gets, at any moment: the merge, by groups and with the context if asked for, of some of what has been
found. -/
def SAnswer (E : Env) (config : SearchConfig) (context : Option SearchContext) (s : SState) (out : List ScoredDatum) : Prop :=
  ∃ got order, (∀ x ∈ got, ∃ j a, WState.ans ⟨s.tasks j, []⟩ 0 = some a ∧ x ∈ a.found) ∧ (∀ m, (order m).Perm m) ∧
    multiMerge E config context order got = .ok out

/-- A property of results, by the node that has them, which all steps keep. -/
structure Kept (E : Env) (q : Datum) (C : Cluster) (config : SearchConfig) (H : Nat → ScoredDatum → Prop) : Prop where
  up : ∀ u v x, v ∈ C.next u → H v x → H u x
  own : ∀ v site tm dt' own, C.holds v site →
    streamSearch E site.vs site.answer site.dt q (some { config with timeout := tm }) = .ok (dt', own) → ∀ x ∈ own, H v x
  flat : ∀ v tm got out, (∀ x ∈ got, H v x) → flatMerge E { config with timeout := tm } none got = .ok out → ∀ x ∈ out, H v x
  multi : ∀ v tm order got out, (∀ m, (order m).Perm m) → (∀ x ∈ got, H v x) →
    multiMerge E { config with timeout := tm } none order got = .ok out → ∀ x ∈ out, H v x

structure HInv (H : Nat → ScoredDatum → Prop) (C : Cluster) (config : SearchConfig) (i : Nat) (ts : List WTask) : Prop where
  root : ∀ t, ts[0]? = some t → t.node = i
  conf : ∀ t ∈ ts, ∃ tm, t.config = { config with timeout := tm }
  kids : ∀ t ∈ ts, ∀ site own ks, t.phase = .asked site own ks → ∀ k ∈ ks, ∃ t', ts[k]? = some t' ∧ t'.node ∈ C.next t.node
  asked : ∀ t ∈ ts, ∀ site own ks, t.phase = .asked site own ks → ∀ x ∈ own, H t.node x
  over : ∀ t ∈ ts, ∀ ks ps f o, t.phase = .over ks ps f o → (∀ x ∈ f, H t.node x) ∧ ∀ x ∈ o, H t.node x

theorem HInv.set {H : Nat → ScoredDatum → Prop} {C : Cluster} {config : SearchConfig} {i : Nat} {ts : List WTask} (hi : HInv H C config i ts) {j : Nat}
    {t : WTask} (h : ts[j]? = some t) (ph : WPhase) (new : List WTask)
    (hn : ∀ x ∈ new, x.node ∈ C.next t.node ∧ (∃ tm, x.config = { config with timeout := tm }) ∧ x.phase = .begun)
    (hk : ∀ site own ks, ph = .asked site own ks → ks = List.range' ts.length new.length)
    (ha : ∀ site own ks, ph = .asked site own ks → ∀ x ∈ own, H t.node x)
    (ho : ∀ ks ps f o, ph = .over ks ps f o → (∀ x ∈ f, H t.node x) ∧ ∀ x ∈ o, H t.node x) :
    HInv H C config i (ts.set j { t with phase := ph } ++ new) := by
  have htm := List.mem_of_getElem? h
  have hm : ∀ x ∈ ts.set j { t with phase := ph } ++ new, x ∈ ts ∨ x = { t with phase := ph } ∨ x ∈ new := by
    intro x hx
    rcases List.mem_append.1 hx with hx | hx
    · exact (List.mem_or_eq_of_mem_set hx).imp id Or.inl
    · exact Or.inr (Or.inr hx)
  have hold : ∀ (k : Nat) (t' : WTask), ts[k]? = some t' → ∃ t'', (ts.set j { t with phase := ph } ++ new)[k]? = some t'' ∧ t''.node = t'.node := by
    intro k t' hk
    have hlt := (List.getElem?_eq_some_iff.1 hk).1
    rw [List.getElem?_append_left (by rw [List.length_set]; exact hlt), List.getElem?_set]
    by_cases e : j = k
    · subst e
      rw [if_pos rfl, if_pos hlt]
      rw [h] at hk
      cases hk
      exact ⟨_, rfl, rfl⟩
    · rw [if_neg e]
      exact ⟨t', hk, rfl⟩
  refine ⟨?_, ?_, ?_, ?_, ?_⟩
  · intro x hx
    have hlt := (List.getElem?_eq_some_iff.1 h).1
    have h0 : ts[0]? = some ts[0] := List.getElem?_eq_getElem (by omega)
    obtain ⟨t'', g1, g2⟩ := hold 0 _ h0
    rw [hx] at g1
    cases g1
    rw [g2]
    exact hi.root _ h0
  · intro x hx
    rcases hm x hx with hx | rfl | hx
    · exact hi.conf x hx
    · exact hi.conf t htm
    · exact (hn x hx).2.1
  · intro x hx site own ks he k hkk
    rcases hm x hx with hx | rfl | hx
    · obtain ⟨t', h1, h2⟩ := hi.kids x hx site own ks he k hkk
      obtain ⟨t'', h3, h4⟩ := hold k t' h1
      exact ⟨t'', h3, h4 ▸ h2⟩
    · rw [hk site own ks he, List.mem_range'_1] at hkk
      have hlt : k - ts.length < new.length := by omega
      refine ⟨new[k - ts.length], ?_, (hn _ (List.getElem_mem hlt)).1⟩
      rw [List.getElem?_append_right (by rw [List.length_set]; omega), List.length_set, List.getElem?_eq_getElem hlt]
    · rw [(hn x hx).2.2] at he; cases he
  · intro x hx
    rcases hm x hx with hx | rfl | hx
    · exact hi.asked x hx
    · exact ha
    · intro site own ks he; rw [(hn x hx).2.2] at he; cases he
  · intro x hx
    rcases hm x hx with hx | rfl | hx
    · exact hi.over x hx
    · exact ho
    · intro ks ps f o he; rw [(hn x hx).2.2] at he; cases he

theorem hinv_ans {H : Nat → ScoredDatum → Prop} {C : Cluster} {config : SearchConfig} {i : Nat} {s : WState} (hi : HInv H C config i s.tasks) {k : Nat}
    {a : WAns} (h : s.ans k = some a) : ∃ t, s.tasks[k]? = some t ∧ (∀ x ∈ a.found, H t.node x) ∧ ∀ x ∈ a.sent, H t.node x := by
  unfold WState.ans at h
  split at h
  · rename_i nd c ks ps f o hk
    cases h
    exact ⟨_, hk, hi.over _ (List.mem_of_getElem? hk) ks ps f o rfl⟩
  · cases h

theorem hinv_serve {E : Env} {q : Datum} {H : Nat → ScoredDatum → Prop} {C : Cluster} {config : SearchConfig} (hK : Kept E q C config H) {i : Nat}
    {ts : List WTask} (hi : HInv H C config i ts) {j : Nat} {t : WTask} (h1 : ts[j]? = some t) {site : Site} (h4 : C.holds t.node site) {dt' : Data}
    {own : List ScoredDatum} (h5 : streamSearch E site.vs site.answer site.dt q (some t.config) = .ok (dt', own)) {dsts : List Nat}
    (h6 : Picks (C.next t.node) dsts) (timeout : UInt64) :
    HInv H C config i (ts.set j { t with phase := .asked site own (List.range' ts.length dsts.length) } ++
      dsts.map (fun d => ⟨d, { t.config with timeout := timeout }, .begun⟩)) := by
  obtain ⟨tm, hc⟩ := hi.conf t (List.mem_of_getElem? h1)
  refine hi.set h1 (.asked site own _) _ ?_ ?_ ?_ (by simp)
  · intro x hx
    obtain ⟨d, hd, rfl⟩ := List.mem_map.1 hx
    obtain ⟨o, ho, rfl⟩ := h6
    exact ⟨ho.mem_iff.1 (List.mem_of_mem_take hd), ⟨timeout, by simp only [hc]⟩, rfl⟩
  · intro site' own' ks he
    injection he with e1 e2 e3
    rw [← e3, List.length_map]
  · intro site' own' ks he x hx
    injection he with e1 e2 e3
    subst e1 e2
    rw [hc] at h5
    exact hK.own t.node site tm dt' own h4 h5 x hx

theorem hinv_step {E : Env} {q : Datum} {H : Nat → ScoredDatum → Prop} {C : Cluster} {config : SearchConfig} (hK : Kept E q C config H) {i : Nat}
    {s s' : WState} {slow : Bool} (hi : HInv H C config i s.tasks) (h : GStep E q C slow s s') : HInv H C config i s'.tasks := by
  have hkid : ∀ t ∈ s.tasks, ∀ site own ks, t.phase = .asked site own ks → ∀ k ∈ ks, ∀ a, s.ans k = some a → ∀ x ∈ a.sent, H t.node x := by
    intro t ht site own ks he k hk a ha x hx
    obtain ⟨t', h1, h2⟩ := hi.kids t ht site own ks he k hk
    obtain ⟨t'', h3, -, h4⟩ := hinv_ans hi ha
    rw [h1] at h3
    cases h3
    exact hK.up _ _ _ h2 (h4 x hx)
  have hset : ∀ (j : Nat) (t : WTask), s.tasks[j]? = some t → ∀ (ks : List Nat) (ps : List (Nat × Site)) (f o : List ScoredDatum),
      (∀ x ∈ f, H t.node x) → (∀ x ∈ o, H t.node x) → HInv H C config i (s.tasks.set j { t with phase := .over ks ps f o }) := by
    intro j t h1 ks ps f o hf ho
    have := hi.set h1 (.over ks ps f o) [] (by simp) (by simp) (by simp) (by
      intro ks ps f o he
      injection he with e1 e2 e3 e4
      subst e3 e4
      exact ⟨hf, ho⟩)
    rwa [List.append_nil] at this
  cases h with
  | cut j t site own kids got found late sent order h0 h1 h2 h3 h4 h5 h6 h7 =>
    have htm := List.mem_of_getElem? h1
    obtain ⟨tm, hc⟩ := hi.conf t htm
    rw [hc] at h4 h7
    have hgot : ∀ x ∈ got, H t.node x := by
      intro x hx
      rcases h3 x hx with h | ⟨k, hk, a, ha, hx⟩
      · exact hi.asked t htm site own kids h2 x h
      · exact hkid t htm site own kids h2 k hk a ha x hx
    have hf := hK.flat _ tm got found hgot h4
    exact hset j t h1 kids [] found sent hf (hK.multi _ tm order late sent h6 (fun x hx => hf x (h5 x hx)) h7)
  | whole h =>
    cases h with
    | refuse j t h1 h2 h3 => exact hset j t h1 [] [] [] [] (by simp) (by simp)
    | fail j t notes h1 h2 h3 => exact hset j t h1 [] [] [] [] (by simp) (by simp)
    | reply j t site own kids as got found sent h1 h2 h3 h4 h5 h6 =>
      have htm := List.mem_of_getElem? h1
      obtain ⟨tm, hc⟩ := hi.conf t htm
      have hgot : ∀ x ∈ got, H t.node x := by
        intro x hx
        have := (collects_perm h4).mem_iff.2 hx
        rw [List.flatten_cons, List.mem_append] at this
        rcases this with h | h
        · exact hi.asked t htm site own kids h2 x h
        · obtain ⟨l, hl', hx'⟩ := List.mem_flatten.1 h
          obtain ⟨a, ha, rfl⟩ := List.mem_map.1 hl'
          have : some a ∈ kids.map s.ans := by rw [← h3]; exact List.mem_map_of_mem ha
          obtain ⟨k, hk, he⟩ := List.mem_map.1 this
          exact hkid t htm site own kids h2 k hk a he x hx'
      rw [hc] at h5 h6
      have hf := hK.flat _ tm got found hgot h5
      obtain ⟨got', order, g1, g2, g3⟩ := h6
      exact hset j t h1 kids _ found sent hf (hK.multi _ tm order got' sent g2 (fun x hx => hf x ((collects_one g1).mem_iff.1 hx)) g3)
    | serve j t site dt' own dsts timeout h1 h2 h3 h4 h5 h6 => exact hinv_serve hK hi h1 h4 h5 h6 timeout

theorem s_inv {E : Env} {D : List Datum} {C : Cluster} {slow anon : Bool} {config : SearchConfig} {i : Nat} {s : SState}
    (h : SReach E D C slow anon config i s) {H : Nat → Nat → ScoredDatum → Prop} (hK : ∀ j d, D[j]? = some d → Kept E d C config (H j)) (j : Nat)
    (hj : j < D.length) : HInv (H j) C config i (s.tasks j) := by
  induction h with
  | start =>
    simp only [SState.start, if_pos hj]
    refine ⟨?_, ?_, ?_, ?_, ?_⟩
    · intro t ht
      cases ht
      rfl
    all_goals intro t ht; rw [List.mem_singleton.1 ht]
    · exact ⟨_, rfl⟩
    · intro site own ks he; cases he
    · intro site own ks he; cases he
    · intro ks ps f o he; cases he
  | @step s s' _ h ih =>
    cases h with
    | root k d c site dt' own dsts timeout h1 h2 h3 h4 h5 =>
      show HInv (H j) C config i (s.put k _ j)
      by_cases e : j = k
      · subst e
        rw [h2] at ih
        have := hinv_serve (hK j d h1) ih (j := 0) (t := ⟨i, c, .begun⟩) rfl h3 h4 h5 timeout
        simpa [SState.put] using this
      · simpa [SState.put, e] using ih
    | act k d w h1 h2 h3 =>
      show HInv (H j) C config i (s.put k _ j)
      by_cases e : j = k
      · subst e
        have := hinv_step (hK j d h1) ih h3
        simpa [SState.put] using this
      · simpa [SState.put, e] using ih

theorem s_none {E : Env} {D : List Datum} {C : Cluster} {slow anon : Bool} {config : SearchConfig} {i : Nat} {s : SState}
    (h : SReach E D C slow anon config i s) (j : Nat) (hj : ¬ j < D.length) : s.tasks j = [] := by
  induction h with
  | start => simp [SState.start, hj]
  | @step s s' _ h ih =>
    cases h with
    | root k d c site dt' own dsts timeout h1 =>
      have : j ≠ k := fun e => hj (e ▸ (List.getElem?_eq_some_iff.1 h1).1)
      simpa [SState.put, this] using ih
    | act k d w h1 =>
      have : j ≠ k := fun e => hj (e ▸ (List.getElem?_eq_some_iff.1 h1).1)
      simpa [SState.put, this] using ih

/-- A datum that is stored and alive at a node connected with `i`, and passes the filters. -/
def CDatum (E : Env) (config : SearchConfig) (C : Cluster) (i : Nat) (d : Datum) : Prop :=
  ∃ v site k val, Linked C.next i v ∧ C.holds v site ∧ d = ⟨some k, some val⟩ ∧ shows (abs site.dt.dbMap) site.clock k val ∧
    Passes E.jsonHas config d

theorem own_hits {E : Env} (hE : E.Ok) {C : Cluster} (hok : ∀ v site, C.holds v site → site.Ok) {config : SearchConfig} (hl : 0 < config.limit)
    (hname : Vec.isAnnoyName config.scoreFuncName = false) {q : DatumKey} {qv : Option DatumValue} {v : Nat} {site : Site} {tm : UInt64} {dt' : Data}
    {own : List ScoredDatum} (hh : C.holds v site)
    (h : streamSearch E site.vs site.answer site.dt ⟨some q, qv⟩ (some { config with timeout := tm }) = .ok (dt', own)) :
    ∀ x ∈ own, CHit E config q C v x := by
  intro x hx
  have hos := hok _ _ hh
  obtain ⟨d, c, cands, g1, -, g3, -, -, g6⟩ := C72_nan_partial E hE site.dt site.vs site.clock q qv { config with timeout := tm } hos.wf hos.range
    hos.clock hl
  unfold streamSearch at h
  simp only [Option.getD_some, hname, Bool.false_eq_true, if_false] at h
  rw [g1, Res.bind_ok] at h
  injection h with h
  injection h with _ h
  subst h
  exact ⟨v, site, .refl, hh, (g3 x).1 (g6 x hx)⟩

theorem kept_data {E : Env} (hE : E.Ok) {C : Cluster} (hok : ∀ v site, C.holds v site → site.Ok) {config : SearchConfig} (hl : 0 < config.limit)
    (hname : Vec.isAnnoyName config.scoreFuncName = false) {d : Datum} (hd : d.key ≠ none) :
    Kept E d C config (fun v x => CDatum E config C v x.datum) where
  up u v x h := by
    rintro ⟨w, site, k, val, h1, h2⟩
    exact ⟨w, site, k, val, linked_trans (.step .refl h) h1, h2⟩
  own v site tm dt' own h1 h2 x hx := by
    obtain ⟨key, qv⟩ := d
    cases key with
    | none => exact absurd rfl hd
    | some q =>
      obtain ⟨w, site', g1, g2, k, val, g3, g4, g5, -⟩ := own_hits hE hok hl hname h1 h2 x hx
      exact ⟨w, site', k, val, g1, g2, g3, g4, g5⟩
  flat v tm got out h1 h2 := flatMerge_data (P := CDatum E config C v) hE.sort h1 h2
  multi v tm order got out h1 h2 h3 := multiMerge_data (P := CDatum E config C v) hE.sort h1 h2 h3

theorem kept_hits {E : Env} (hE : E.Ok) {C : Cluster} (hok : ∀ v site, C.holds v site → site.Ok) {config : SearchConfig} (hl : 0 < config.limit)
    (hname : Vec.isAnnoyName config.scoreFuncName = false) (hg : config.groupLimit = 0) {q : DatumKey} {qv : Option DatumValue} :
    Kept E ⟨some q, qv⟩ C config (CHit E config q C) where
  up u v x h hx := chit_up (.step .refl h) hx
  own v site tm dt' own h1 h2 := own_hits hE hok hl hname h1 h2
  flat v tm got out h1 h2 x hx := h1 x ((flatMerge_sub hE (config := { config with timeout := tm }) hl (chit_keyed h1) h2).1 x hx)
  multi v tm order got out h1 h2 h3 x hx := by
    rw [multiMerge, if_neg (by show ¬ 0 < config.groupLimit; rw [hg]; decide)] at h3
    exact h2 x ((flatMerge_sub hE (config := { config with timeout := tm }) hl (chit_keyed h2) h3).1 x hx)

theorem s_found {E : Env} {D : List Datum} {C : Cluster} {slow anon : Bool} {config : SearchConfig} {i : Nat} {s : SState}
    (h : SReach E D C slow anon config i s) {H : Nat → Nat → ScoredDatum → Prop} (hK : ∀ j d, D[j]? = some d → Kept E d C config (H j)) {j : Nat}
    {a : WAns} (ha : WState.ans ⟨s.tasks j, []⟩ 0 = some a) : ∃ d, D[j]? = some d ∧ ∀ x ∈ a.found, H j i x := by
  by_cases hj : j < D.length
  · have hi := s_inv h hK j hj
    obtain ⟨t, h1, h2, -⟩ := hinv_ans (s := ⟨s.tasks j, []⟩) hi ha
    rw [hi.root t h1] at h2
    exact ⟨D[j], List.getElem?_eq_getElem hj, h2⟩
  · rw [s_none h j hj] at ha
    cases ha

end Clu
open Clu Search Store Agg

/-- **C202.**  A request with any number of data, with or without groups and a search context, whatever time limits are reached and whatever nodes refuse
or fail: every datum in the answer has been stored and alive at a node connected with the one asked, and passes the filters; no more than asked for. -/
theorem C202_data (E : Env) (hE : E.Ok) (D : List Datum) (C : Cluster) (slow anon : Bool) (config : SearchConfig) (context : Option SearchContext) (i : Nat)
    (s : SState) (hs : SReach E D C slow anon config i s) (out : List ScoredDatum) (hD : ∀ d ∈ D, d.key ≠ none) (hl : 0 < config.limit)
    (hname : ¬ "Annoy".toList <+: config.scoreFuncName.toList) (hok : ∀ v site, C.holds v site → site.Ok)
    (ho : SAnswer E config context s out) :
    (∀ y ∈ out, ∃ v site k val, Linked C.next i v ∧ C.holds v site ∧ y.datum = ⟨some k, some val⟩ ∧
      Ref.shows (Store.abs site.dt.dbMap) site.clock k val ∧ Ref.Passes E.jsonHas config y.datum) ∧ out.length ≤ Ref.asked config := by
  have hn : Vec.isAnnoyName config.scoreFuncName = false := by
    cases h : Vec.isAnnoyName config.scoreFuncName with
    | false => rfl
    | true => exact absurd (List.isPrefixOf_iff_prefix.mp h) hname
  obtain ⟨got, order, h1, h2, h3⟩ := ho
  refine ⟨multiMerge_data (P := CDatum E config C i) hE.sort h2 ?_ h3, multiMerge_len hE h3⟩
  intro x hx
  obtain ⟨j, a, ha, hxa⟩ := h1 x hx
  obtain ⟨d, -, h⟩ := s_found hs (H := fun _ v x => CDatum E config C v x.datum)
    (fun j d hd => kept_data hE hok hl hn (hD d (List.mem_of_getElem? hd))) ha
  exact h x hxa

/-- C202: without groups and context every result is a match of one of the data of the request, with its score. -/
theorem C202_scores (E : Env) (hE : E.Ok) (D : List Datum) (C : Cluster) (slow anon : Bool) (config : SearchConfig) (i : Nat)
    (s : SState) (hs : SReach E D C slow anon config i s) (out : List ScoredDatum) (hD : ∀ d ∈ D, d.key ≠ none) (hl : 0 < config.limit)
    (hg : config.groupLimit = 0) (hname : ¬ "Annoy".toList <+: config.scoreFuncName.toList) (hok : ∀ v site, C.holds v site → site.Ok)
    (ho : SAnswer E config none s out) :
    ∀ y ∈ out, ∃ d ∈ D, ∃ q v site, d.key = some q ∧ Linked C.next i v ∧ C.holds v site ∧
      Ref.IsHit E config q (Ref.shows (Store.abs site.dt.dbMap) site.clock) y := by
  have hn : Vec.isAnnoyName config.scoreFuncName = false := by
    cases h : Vec.isAnnoyName config.scoreFuncName with
    | false => rfl
    | true => exact absurd (List.isPrefixOf_iff_prefix.mp h) hname
  obtain ⟨got, order, h1, h2, h3⟩ := ho
  have hgot : ∀ x ∈ got, ∃ d ∈ D, ∃ q, d.key = some q ∧ CHit E config q C i x := by
    intro x hx
    obtain ⟨j, a, ha, hxa⟩ := h1 x hx
    obtain ⟨d, hd, h⟩ := s_found hs (H := fun j v x => ∀ d, D[j]? = some d → ∀ q, d.key = some q → CHit E config q C v x)
      (fun j d hd => by
        obtain ⟨key, qv⟩ := d
        cases key with
        | none => exact absurd rfl (hD _ (List.mem_of_getElem? hd))
        | some q =>
          have : (fun v x => ∀ d, D[j]? = some d → ∀ q, d.key = some q → CHit E config q C v x) = CHit E config q C := by
            funext v x
            apply propext
            constructor
            · intro h; exact h _ hd q rfl
            · intro h d' hd' q' hq'
              rw [hd] at hd'
              cases hd'
              cases hq'
              exact h
          rw [this]
          exact kept_hits hE hok hl hn hg) ha
    have hdm := List.mem_of_getElem? hd
    cases hk : d.key with
    | none => exact absurd hk (hD d hdm)
    | some q => exact ⟨d, hdm, q, hk, h x hxa d hd q hk⟩
  have hkd : Ref.Keyed got := by
    intro x hx
    obtain ⟨d, -, q, -, v, site, -, -, k, val, e, -⟩ := hgot x hx
    exact ⟨k, some val, e⟩
  rw [multiMerge, if_neg (by rw [hg]; decide)] at h3
  intro y hy
  obtain ⟨d, h4, q, h5, v, site, h6⟩ := hgot y ((flatMerge_sub hE hl hkd h3).1 y hy)
  exact ⟨d, h4, q, v, site, h5, h6⟩

namespace Clu

/-- Two points are asked for, smaller distances first, groups of two. -/
def exTwoPoints : List Datum := [⟨some (exPoint 0), none⟩, ⟨some (exPoint 0x40000000), none⟩]
def exGroups : SearchConfig := { exBoth with groupLimit := 2 }
def quarter : F64 := 0x3FD0000000000000

/-- What a node of the example finds for a point. -/
def exOwnAt (config : SearchConfig) (q : F32) (xs : List F32) : Option (List ScoredDatum) :=
  match streamSearch exEnv (exVisits xs) [] (exData xs) ⟨some (exPoint q), none⟩ (some config) with
  | .ok (_, l) => some l
  | _ => none

theorem exOwnAt_some {config : SearchConfig} {q : F32} {xs : List F32} {l : List ScoredDatum} (h : exOwnAt config q xs = some l) :
    ∃ dt', streamSearch exEnv (exSite xs).vs (exSite xs).answer (exSite xs).dt ⟨some (exPoint q), none⟩ (some config) = .ok (dt', l) := by
  unfold exOwnAt at h
  show ∃ dt', streamSearch exEnv (exVisits xs) [] (exData xs) ⟨some (exPoint q), none⟩ (some config) = .ok (dt', l)
  split at h
  · rename_i dt' l' heq
    injection h with h
    subst h
    exact ⟨_, heq⟩
  · cases h

def exTasks (a b : List WTask) (j : Nat) : List WTask := if j = 0 then a else if j = 1 then b else []

theorem ex_put0 {a b l : List WTask} {n : List Nat} : SState.put ⟨exTasks a b, n⟩ 0 l = exTasks l b := by
  funext k
  unfold SState.put exTasks
  split <;> simp_all

theorem ex_put1 {a b l : List WTask} {n : List Nat} : SState.put ⟨exTasks a b, n⟩ 1 l = exTasks a l := by
  funext k
  unfold SState.put exTasks
  split <;> simp_all

/-- The request of the example goes on. -/
def ExRun (C : Cluster) (slow : Bool) (config : SearchConfig) (a b : List WTask) (n : List Nat) : Prop :=
  SReach exEnv exTwoPoints C slow true config 1 ⟨exTasks a b, n⟩

theorem ex_start {C : Cluster} {slow : Bool} {config : SearchConfig} : ExRun C slow config [⟨1, config, .begun⟩] [⟨1, config, .begun⟩] [] := by
  have : SState.start exTwoPoints true config 1 = ⟨exTasks [⟨1, config, .begun⟩] [⟨1, config, .begun⟩], []⟩ := by
    unfold SState.start exTasks
    congr 1
    funext j
    match j with
    | 0 => rfl
    | 1 => rfl
    | n + 2 => simp [exTwoPoints]
  unfold ExRun
  rw [← this]
  exact .start

theorem ex_root0 {C : Cluster} {slow : Bool} {config : SearchConfig} {b : List WTask} {n : List Nat} (h : ExRun C slow config [⟨1, config, .begun⟩] b n) {site : Site} {dt' : Data} {own : List ScoredDatum}
    {dsts : List Nat} (h1 : C.holds 1 site)
    (h2 : streamSearch exEnv site.vs site.answer site.dt ⟨some (exPoint 0), none⟩ (some config) = .ok (dt', own))
    (h3 : Picks (C.next 1) dsts) (timeout : UInt64) : ExRun C slow config (⟨1, config, .asked site own (List.range' 1 dsts.length)⟩ ::
        dsts.map (fun v => ⟨v, { config with timeout := timeout }, .begun⟩)) b n := by
  have := SReach.step h (.root 0 _ config site dt' own dsts timeout rfl rfl h1 h2 h3)
  simp only [ex_put0] at this
  exact this

theorem ex_root1 {C : Cluster} {slow : Bool} {config : SearchConfig} {a : List WTask} {n : List Nat} (h : ExRun C slow config a [⟨1, config, .begun⟩] n) {site : Site} {dt' : Data} {own : List ScoredDatum}
    {dsts : List Nat} (h1 : C.holds 1 site)
    (h2 : streamSearch exEnv site.vs site.answer site.dt ⟨some (exPoint 0x40000000), none⟩ (some config) = .ok (dt', own))
    (h3 : Picks (C.next 1) dsts) (timeout : UInt64) : ExRun C slow config a (⟨1, config, .asked site own (List.range' 1 dsts.length)⟩ ::
        dsts.map (fun v => ⟨v, { config with timeout := timeout }, .begun⟩)) n := by
  have := SReach.step h (.root 1 _ config site dt' own dsts timeout rfl rfl h1 h2 h3)
  simp only [ex_put1] at this
  exact this

theorem ex_act0 {C : Cluster} {slow : Bool} {config : SearchConfig} {a b : List WTask} {n : List Nat} {w : WState} (h : ExRun C slow config a b n) (h1 : ∀ t, a[0]? = some t → t.phase ≠ .begun)
    (h2 : GStep exEnv ⟨some (exPoint 0), none⟩ C slow ⟨a, n⟩ w) : ExRun C slow config w.tasks b w.noted := by
  have := SReach.step h (.act 0 _ w rfl h1 h2)
  rw [ex_put0] at this
  exact this

theorem ex_act1 {C : Cluster} {slow : Bool} {config : SearchConfig} {a b : List WTask} {n : List Nat} {w : WState} (h : ExRun C slow config a b n) (h1 : ∀ t, b[0]? = some t → t.phase ≠ .begun)
    (h2 : GStep exEnv ⟨some (exPoint 0x40000000), none⟩ C slow ⟨b, n⟩ w) : ExRun C slow config a w.tasks w.noted := by
  have := SReach.step h (.act 1 _ w rfl h1 h2)
  rw [ex_put1] at this
  exact this

end Clu

/-- C202 at work, in the ring of C187: the second node is asked for two points.  Its source answers the search for the second point and refuses that for the
first one.  The answer is one group: the three results, two of them of the point of the node asked, count as two data, and the point of the other node stands
for them. -/
theorem C202_example : ∃ s, SReach exEnv exTwoPoints exRing true true exGroups 1 s ∧ SAnswer exEnv exGroups none s [exFound quarter 0x40000000] ∧
    (s.tasks 0)[1]? = some ⟨2, exGroups, .over [] [] [] []⟩ ∧ WState.ans ⟨s.tasks 1, []⟩ 1 ≠ none := by
  obtain ⟨d0, o0⟩ := exOwnAt_some (config := exGroups) (q := 0) (xs := [0x3F800000]) (l := [exFound F64.one 0x3F800000]) (by decide +kernel)
  obtain ⟨d1, o1⟩ := exOwnAt_some (config := exGroups) (q := 0x40000000) (xs := [0x3F800000]) (l := [exFound F64.one 0x3F800000]) (by decide +kernel)
  obtain ⟨d2, o2⟩ := exOwnAt_some (config := exGroups) (q := 0x40000000) (xs := [0x40000000]) (l := [exFound 0 0x40000000]) (by decide +kernel)
  have m0 : flatMerge exEnv exGroups none [exFound F64.one 0x3F800000] = .ok [exFound F64.one 0x3F800000] := outOf_some (by decide +kernel)
  have m2 : flatMerge exEnv exGroups none [exFound 0 0x40000000] = .ok [exFound 0 0x40000000] := outOf_some (by decide +kernel)
  have m3 : flatMerge exEnv exGroups none [exFound F64.one 0x3F800000, exFound 0 0x40000000] =
    .ok [exFound 0 0x40000000, exFound F64.one 0x3F800000] := outOf_some (by decide +kernel)
  have g2 : multiMerge exEnv exGroups none id [exFound 0 0x40000000] = .ok [exFound 0 0x40000000] := outOf_some (by decide +kernel)
  have g0 : multiMerge exEnv exGroups none id [] = .ok [] := outOf_some (by decide +kernel)
  have g4 : multiMerge exEnv exGroups none id [exFound F64.one 0x3F800000, exFound F64.one 0x3F800000, exFound 0 0x40000000] =
    .ok [exFound quarter 0x40000000] := outOf_some (by decide +kernel)
  have r1 := ex_root0 (C := exRing) (slow := true) ex_start (.inr (.inl ⟨rfl, rfl⟩)) o0 (dsts := [2]) ⟨[2], .refl _, rfl⟩ exGroups.timeout
  have r2 := ex_root1 r1 (.inr (.inl ⟨rfl, rfl⟩)) o1 (dsts := [2]) ⟨[2], .refl _, rfl⟩ exGroups.timeout
  have r3 := ex_act1 r2 (by simp) (.whole (.serve 1 ⟨2, exGroups, .begun⟩ (exSite [0x40000000]) d2
    [exFound 0 0x40000000] [0] 0 rfl rfl (by simp) (.inr (.inr ⟨rfl, rfl⟩)) o2 ⟨[0], .refl _, rfl⟩))
  have r4 := ex_act0 r3 (by simp) (.whole (.refuse 1 ⟨2, exGroups, .begun⟩ rfl rfl (by simp)))
  have r5 := ex_act1 r4 (by simp) (.cut 1 ⟨2, exGroups, .asked (exSite [0x40000000]) [exFound 0 0x40000000] [2]⟩ _ _ _ [exFound 0 0x40000000]
    [exFound 0 0x40000000] [exFound 0 0x40000000] [exFound 0 0x40000000] id rfl rfl rfl (fun x hx => .inl hx) m2 (fun x hx => hx) (fun m => .refl m) g2)
  have r6 := ex_act1 r5 (by simp) (.cut 0 ⟨1, exGroups, .asked (exSite [0x3F800000]) [exFound F64.one 0x3F800000] [1]⟩ _ _ _
    [exFound F64.one 0x3F800000, exFound 0 0x40000000] [exFound 0 0x40000000, exFound F64.one 0x3F800000] [] [] id rfl rfl rfl (by
      intro x hx
      rcases List.mem_cons.1 hx with rfl | hx
      · exact .inl List.mem_cons_self
      · exact .inr ⟨1, List.mem_cons_self, ⟨exGroups, [], [exFound 0 0x40000000], [exFound 0 0x40000000]⟩, rfl, hx⟩) m3 (by simp) (fun m => .refl m) g0)
  have r7 := ex_act0 r6 (by simp) (.cut 0 ⟨1, exGroups, .asked (exSite [0x3F800000]) [exFound F64.one 0x3F800000] [1]⟩ _ _ _
    [exFound F64.one 0x3F800000] [exFound F64.one 0x3F800000] [] [] id rfl rfl rfl (fun x hx => .inl hx) m0 (by simp) (fun m => .refl m) g0)
  refine ⟨_, r7, ⟨[exFound F64.one 0x3F800000, exFound F64.one 0x3F800000, exFound 0 0x40000000], id, ?_, fun m => .refl m, g4⟩, rfl, by
    intro h; cases h⟩
  intro x hx
  rcases List.mem_cons.1 hx with rfl | hx
  · exact ⟨0, _, rfl, List.mem_cons_self⟩
  · exact ⟨1, _, rfl, by
      rcases List.mem_cons.1 hx with rfl | hx
      · exact List.mem_cons_of_mem _ List.mem_cons_self
      · rw [List.mem_singleton.1 hx]; exact List.mem_cons_self⟩

end Veri
