import Verif.Node.Isolation
import Verif.Search.Props
import Mathlib.Data.List.Nodup
/-
C173: what a data set of a node holds is what the requests and their answers say.  C08 for the node as its clients see it: inserts,
searches, streams, requests for other data sets and the background activity in any order.
-/
set_option autoImplicit false
namespace Veri
open Net Store Gencoder

namespace Ref
open Iso

/-- What `f` does to a data set is to forget, at times up to `T` (in seconds), what has expired: any number of scans. -/
def Scans {α : Type} (T : Int64) (f : Data → Res (Data × α)) : Prop :=
  ∀ dt dt' a, WF dt.dbMap → f dt = .ok (dt', a) → ∃ clocks : List (DatumKey → Int64), (∀ c ∈ clocks, ∀ q, c q ≤ T) ∧
    WF dt'.dbMap ∧ abs dt'.dbMap = clocks.foldl afterScan (abs dt.dbMap)

/-- The requests the property is about: the data inserted have a key and a value, a search or a stream scans, and a walk over the list
meets no name twice (the keys of a Go map). -/
def Proper {σ α : Type} (T : Int64) (k : String) : Req σ α → Prop
  | .insert _ _ _ _ name datum _ => name = k → ∃ q v, datum = some ⟨some q, some v⟩
  | .search _ c f => c.dataName = k → ∀ c, Scans T (f c)
  | .stream name f => name = k → Scans T f
  | .walk order => order.Nodup
  | _ => True

/-- What a request with its answer means for the data set `k`. -/
inductive Did {σ α : Type} (T : Int64) (k : String) : Req σ α → Ans σ α → List Op → Prop
  /-- acknowledged, or stored here but with too few replicas -/
  | stored {nowS order call w q v config w' e} (h1 : e ≠ some .drain) (h2 : e ≠ some .overTarget) :
      Did T k (.insert nowS order call w k (some ⟨some q, some v⟩) config) (.inserted w' e) [.insert nowS q v config]
  | refused {nowS order call w datum config w' e} (h : e = some .drain ∨ e = some .overTarget) :
      Did T k (.insert nowS order call w k datum config) (.inserted w' e) []
  | searched {fresh c f a} (clocks : List (DatumKey → Int64)) (h : ∀ t ∈ clocks, ∀ q, t q ≤ T) (hc : c.dataName = k) :
      Did T k (.search fresh c f) (.found a) (clocks.map .scan)
  | streamed {f a} (clocks : List (DatumKey → Int64)) (h : ∀ t ∈ clocks, ∀ q, t q ≤ T) :
      Did T k (.stream k f) (.found a) (clocks.map .scan)
  /-- neither an insert into `k` nor a search or stream of `k` that found something: no effect -/
  | nothing {r a} (h1 : ∀ nowS order call w name datum config, r = .insert nowS order call w name datum config → name ≠ k)
      (h2 : (∃ x, a = .found x) → concerns r ≠ some k) : Did T k r a []

/-- What a history means for it. -/
inductive History {σ α : Type} (T : Int64) (k : String) : List (Int × Req σ α) → List (Ans σ α) → List Op → Prop
  | nil : History T k [] [] []
  | cons {t r rs a as ops ops'} (h : Did T k r a ops) (hs : History T k rs as ops') :
      History T k ((t, r) :: rs) (a :: as) (ops ++ ops')

/-- The data set is in the list whenever something happens, and at the end. -/
def Stays {σ α : Type} (X : DS.XEnv) (k : String) : List (Int × Req σ α) → Node → Prop
  | [], n => (n.dataset.get? k).isSome = true
  | (t, r) :: rs, n => (DS.lookup t n.dataset k).isSome = true ∧ ∀ n' a, serve X t n r = .ok (n', a) → Stays X k rs n'

end Ref
open Iso Ref

namespace Iso
variable {σ α β : Type}

theorem ok_of_bind {γ δ : Type} {x : Res γ} {f : γ → Res δ} {b : δ} (h : x.bind f = .ok b) : ∃ a, x = .ok a ∧ f a = .ok b := by
  cases x with
  | ok a => exact ⟨a, rfl, h⟩
  | err _ => cases h
  | panic => cases h

/-- `Get` of a data set that is there. -/
theorem get_there {X : DS.XEnv} {now : Int} {m m' : DS.DL} {k : String} {s : DS.Slot} {d : Data} (hl : DS.lookup now m k = some s)
    (h : DS.get X now m k = .ok (m', d)) : d = s.data ∧ ∃ e, m'.get? k = some ⟨s.data, e⟩ := by
  unfold DS.get at h
  rw [hl] at h
  simp only [DS.touch] at h
  obtain ⟨c, _, h⟩ := ok_of_bind h
  simp only [Res.ok.injEq, Prod.mk.injEq] at h
  obtain ⟨rfl, rfl⟩ := h
  exact ⟨rfl, _, AMap.get?_set_self _ _ _⟩

/-- `CreateIfNotExists` of a data set that is there. -/
theorem create_there {now : Int} {m m' : DS.DL} {c : DataConfig} {s : DS.Slot} (hl : DS.lookup now m c.name = some s)
    (h : DS.createIfNotExists now m c = .ok m') : ∃ s', DS.lookup now m' c.name = some s' ∧ s'.data.dbMap = s.data.dbMap := by
  unfold DS.createIfNotExists at h
  rw [hl] at h
  simp only at h
  obtain ⟨c0, _, h⟩ := ok_of_bind h
  split at h
  · simp only [Res.ok.injEq] at h
    subst h
    refine ⟨{ s with data := { s.data with config := some c } }, ?_, rfl⟩
    rw [DS.lookup_set_self]
    exact if_pos (DS.lookup_some.mp hl).2
  · simp only [Res.ok.injEq] at h
    subst h
    exact ⟨s, hl, rfl⟩

theorem getOrCreate_there {X : DS.XEnv} {now : Int} {m m' : DS.DL} {c : DataConfig} {s : DS.Slot} {d : Data}
    (hl : DS.lookup now m c.name = some s) (h : DS.getOrCreate X now m c = .ok (m', d)) :
    ∃ s', m'.get? c.name = some s' ∧ s'.data.dbMap = s.data.dbMap := by
  unfold DS.getOrCreate at h
  obtain ⟨m1, h1, h⟩ := ok_of_bind h
  obtain ⟨s1, e1, e2⟩ := create_there hl h1
  obtain ⟨-, e, e3⟩ := get_there e1 h
  exact ⟨_, e3, e2⟩

/-- A walk passes each data set at most once. -/
theorem walk_there {X : DS.XEnv} {now : Int} {k : String} {s : DS.Slot} : ∀ {order : List String} {m m' : DS.DL} {cs : List DataConfig},
    order.Nodup → DS.lookup now m k = some s → DS.walk X now order m = .ok (m', cs) → ∃ s', m'.get? k = some s' ∧ s'.data = s.data
  | [], m, m', cs, _, hl, h => by
    simp only [DS.walk, Res.ok.injEq, Prod.mk.injEq] at h
    obtain ⟨rfl, rfl⟩ := h
    exact ⟨s, (DS.lookup_some.mp hl).1, rfl⟩
  | j :: js, m, m', cs, ho, hl, h => by
    obtain ⟨h1, h2⟩ := List.nodup_cons.mp ho
    simp only [DS.walk] at h
    obtain ⟨⟨m1, d⟩, e1, h⟩ := ok_of_bind h
    obtain ⟨c, _, h⟩ := ok_of_bind h
    obtain ⟨⟨m2, cs2⟩, e2, h⟩ := ok_of_bind h
    simp only [Res.ok.injEq, Prod.mk.injEq] at h
    obtain ⟨rfl, rfl⟩ := h
    by_cases hj : j = k
    · subst hj
      obtain ⟨-, e, e3⟩ := get_there hl e1
      have : ∀ (js : List String) {m m' : DS.DL} {cs : List DataConfig}, j ∉ js → DS.walk X now js m = .ok (m', cs) →
          m'.get? j = m.get? j := by
        intro js
        induction js with
        | nil =>
          intro m m' cs _ h
          simp only [DS.walk, Res.ok.injEq, Prod.mk.injEq] at h
          rw [h.1]
        | cons i is ih =>
          intro m m' cs hn h
          simp only [DS.walk] at h
          obtain ⟨⟨m3, d3⟩, e1, h⟩ := ok_of_bind h
          obtain ⟨c3, _, h⟩ := ok_of_bind h
          obtain ⟨⟨m4, cs4⟩, e2, h⟩ := ok_of_bind h
          simp only [Res.ok.injEq, Prod.mk.injEq] at h
          obtain ⟨rfl, rfl⟩ := h
          rw [ih (fun hx => hn (List.mem_cons_of_mem _ hx)) e2]
          have hk := keeps_get (X := X) (now := now) (m := m) (j := i) (k := j) (fun hx => hn (hx ▸ List.mem_cons_self))
          rw [e1] at hk
          exact hk.1
      rw [this js h1 e2]
      exact ⟨_, e3, rfl⟩
    · have hk := keeps_get (X := X) (now := now) (m := m) hj
      rw [e1] at hk
      exact walk_there h2 ((DS.lookup_congr hk.1).trans hl) e2

theorem refRun_scans (r : RefMap) : ∀ clocks : List (DatumKey → Int64), refRun r (clocks.map Op.scan) = clocks.foldl afterScan r := by
  intro clocks
  induction clocks generalizing r with
  | nil => rfl
  | cons c cs ih => exact ih _

theorem refRun_append (r : RefMap) : ∀ ops ops' : List Op, refRun r (ops ++ ops') = refRun (refRun r ops) ops' := by
  intro ops
  induction ops generalizing r with
  | nil => intro _; rfl
  | cons o os ih => intro ops'; exact ih _ _

/-- `Insert` on a data set: refused, or the store's insert. -/
theorem data_insert {nowS : Int64} {order : List SourceId} {call : Data.RemoteInsert σ} {dt : Data} {w : σ} {q : DatumKey} {v : DatumValue}
    {config : Option InsertConfig} {out : Data.InsertOut σ} (hw : WF dt.dbMap)
    (h : Data.insert nowS order call dt w (some ⟨some q, some v⟩) config = .ok out) :
    (out.err = some .overTarget ∧ out.data = dt) ∨ (out.err ≠ some .drain ∧ out.err ≠ some .overTarget ∧ WF out.data.dbMap ∧
      abs out.data.dbMap = Ref.insert (abs dt.dbMap) nowS q v config) := by
  unfold Data.insert at h
  split at h
  · simp only [Res.ok.injEq] at h
    subst h
    exact Or.inl ⟨rfl, rfl⟩
  · right
    have hi : dt.initData.dbMap = dt.dbMap := by unfold Data.initData; split <;> rfl
    obtain ⟨m2, b2, h1, h2, h3, -⟩ := insertBDMap_spec hw nowS q v config
    simp only [hi, h1, Res.bind_ok] at h
    obtain ⟨dc, _, h⟩ := ok_of_bind h
    split at h
    · obtain ⟨_, _, h⟩ := ok_of_bind h
      simp only [Res.ofOption_some, Res.bind_ok, Res.ok.injEq] at h
      subst h
      refine ⟨?_, ?_, h2, h3⟩ <;> (simp only; split <;> simp)
    · simp only [Res.ok.injEq] at h
      subst h
      exact ⟨by simp, by simp, h2, h3⟩

/-- One request for a data set that is there, and still there afterwards. -/
theorem act_contents {X : DS.XEnv} {T : Int64} {k : String} {now : Int} {drain : Bool} {m m' : DS.DL} {r : Req σ α} {a : Ans σ α}
    {s s' : DS.Slot} (hn : m.Nodup) (hl : DS.lookup now m k = some s) (hw : WF s.data.dbMap) (hp : Proper T k r)
    (h : act X now drain m r = .ok (m', a)) (h' : m'.get? k = some s') :
    ∃ ops, Did T k r a ops ∧ WF s'.data.dbMap ∧ abs s'.data.dbMap = refRun (abs s.data.dbMap) ops := by
  have hg := (DS.lookup_some.mp hl).1
  have same : ∀ {s'' : DS.Slot}, m'.get? k = some s'' → s''.data.dbMap = s.data.dbMap → WF s'.data.dbMap ∧
      abs s'.data.dbMap = abs s.data.dbMap := by
    intro s'' e1 e2
    rw [h'] at e1
    cases e1
    rw [e2]
    exact ⟨hw, rfl⟩
  have other : ∀ j, concerns r = some j → j ≠ k → WF s'.data.dbMap ∧ abs s'.data.dbMap = abs s.data.dbMap := by
    intro j hj hjk
    have hk := keeps_act (X := X) (now := now) (drain := drain) (m := m) r hj hjk
    rw [h] at hk
    exact same (hk.1.trans hg) rfl
  cases r with
  | insert nowS order call w name datum config =>
    by_cases hk : name = k
    · subst hk
      obtain ⟨q, v, rfl⟩ := hp rfl
      simp only [act] at h
      obtain ⟨⟨m1, w1, e1⟩, hx, h2⟩ := ok_of_bind h
      clear h
      simp only [Res.ok.injEq, Prod.mk.injEq] at h2
      obtain ⟨rfl, rfl⟩ := h2
      unfold DS.insert at hx
      split at hx
      · simp only [Res.ok.injEq, Prod.mk.injEq] at hx
        obtain ⟨rfl, rfl, rfl⟩ := hx
        exact ⟨[], .refused (Or.inl rfl), same hg rfl⟩
      · obtain ⟨⟨m2, d⟩, e2, hy⟩ := ok_of_bind hx
        obtain ⟨out, e3, hz⟩ := ok_of_bind hy
        obtain ⟨rfl, e, e4⟩ := get_there hl e2
        clear hx hy
        rw [e4] at hz
        simp only [Res.ok.injEq, Prod.mk.injEq] at hz
        obtain ⟨rfl, rfl, rfl⟩ := hz
        rw [AMap.get?_set_self] at h'
        cases h'
        rcases data_insert hw e3 with ⟨x1, x2⟩ | ⟨x1, x2, x3, x4⟩
        · exact ⟨[], .refused (Or.inr x1), by rw [x2]; exact hw, by rw [x2]; rfl⟩
        · exact ⟨_, .stored x1 x2, x3, x4⟩
    · refine ⟨[], .nothing ?_ ?_, other name rfl hk⟩
      · rintro _ _ _ _ _ _ _ ⟨⟩
        exact hk
      · intro _ hc
        exact hk (Option.some.inj hc)
  | info name =>
    have hd : Did T k (.info name : Req σ α) a [] := by
      refine .nothing (by rintro _ _ _ _ _ _ _ ⟨⟩) ?_
      rintro ⟨x, rfl⟩
      simp only [act] at h
      obtain ⟨_, _, h⟩ := ok_of_bind h
      simp at h
    refine ⟨[], hd, ?_⟩
    by_cases hk : name = k
    · subst hk
      simp only [act, DS.getDataInfo] at h
      obtain ⟨⟨m1, i⟩, hx, h2⟩ := ok_of_bind h
      clear h
      simp only [Res.ok.injEq, Prod.mk.injEq] at h2
      obtain ⟨rfl, rfl⟩ := h2
      obtain ⟨⟨m2, d⟩, e2, hy⟩ := ok_of_bind hx
      obtain ⟨i, _, hz⟩ := ok_of_bind hy
      clear hx hy
      simp only [Res.ok.injEq, Prod.mk.injEq] at hz
      obtain ⟨rfl, rfl⟩ := hz
      obtain ⟨-, e, e4⟩ := get_there hl e2
      exact same e4 rfl
    · exact other name rfl hk
  | create c =>
    have hd : Did T k (.create c : Req σ α) a [] := by
      refine .nothing (by rintro _ _ _ _ _ _ _ ⟨⟩) ?_
      rintro ⟨x, rfl⟩
      simp only [act] at h
      obtain ⟨_, _, h⟩ := ok_of_bind h
      obtain ⟨_, _, h⟩ := ok_of_bind h
      simp at h
    refine ⟨[], hd, ?_⟩
    by_cases hk : c.name = k
    · subst hk
      simp only [act] at h
      obtain ⟨⟨m1, d⟩, e1, h⟩ := ok_of_bind h
      obtain ⟨i, _, h⟩ := ok_of_bind h
      simp only [Res.ok.injEq, Prod.mk.injEq] at h
      obtain ⟨rfl, rfl⟩ := h
      obtain ⟨s1, e2, e3⟩ := getOrCreate_there hl e1
      exact same e2 e3
    · exact other c.name rfl hk
  | delete name =>
    have hd : Did T k (.delete name : Req σ α) a [] := by
      refine .nothing (by rintro _ _ _ _ _ _ _ ⟨⟩) ?_
      rintro ⟨x, rfl⟩
      simp only [act] at h
      obtain ⟨_, _, h⟩ := ok_of_bind h
      simp at h
    refine ⟨[], hd, ?_⟩
    by_cases hk : name = k
    · subst hk
      simp only [act, DS.delete, hl, Res.bind_ok, Res.ok.injEq, Prod.mk.injEq] at h
      obtain ⟨rfl, rfl⟩ := h
      rw [AMap.get?_erase_self] at h'
      cases h'
    · exact other name rfl hk
  | search fresh c f =>
    simp only [act] at h
    obtain ⟨⟨m1, x⟩, hx, h2⟩ := ok_of_bind h
    clear h
    simp only [Res.ok.injEq, Prod.mk.injEq] at h2
    obtain ⟨rfl, rfl⟩ := h2
    by_cases hk : c.dataName = k
    · subst hk
      simp only [DS.search, DS.getNoCreate, hl, Res.bind_ok] at hx
      obtain ⟨⟨d, y⟩, e1, hy⟩ := ok_of_bind hx
      clear hx
      simp only [hg, Res.ok.injEq, Prod.mk.injEq] at hy
      obtain ⟨rfl, rfl⟩ := hy
      rw [AMap.get?_set_self] at h'
      cases h'
      obtain ⟨clocks, x1, x2, x3⟩ := hp rfl c _ _ _ hw e1
      exact ⟨_, .searched clocks x1 rfl, x2, by rw [refRun_scans]; exact x3⟩
    · refine ⟨[], .nothing (by rintro _ _ _ _ _ _ _ ⟨⟩) ?_, ?_⟩
      · intro _ hc
        exact hk (Option.some.inj hc)
      · have hk' := keeps_act (X := X) (now := now) (drain := drain) (m := m) (.search fresh c f : Req σ α) rfl hk
        simp only [act, hx, Res.bind_ok] at hk'
        exact same (hk'.1.trans hg) rfl
  | stream name f =>
    simp only [act] at h
    obtain ⟨⟨m1, x⟩, hx, h2⟩ := ok_of_bind h
    clear h
    simp only [Res.ok.injEq, Prod.mk.injEq] at h2
    obtain ⟨rfl, rfl⟩ := h2
    by_cases hk : name = k
    · subst hk
      simp only [stream] at hx
      obtain ⟨⟨m2, d⟩, e2, hy⟩ := ok_of_bind hx
      obtain ⟨⟨d', y⟩, e3, hz⟩ := ok_of_bind hy
      obtain ⟨rfl, e, e4⟩ := get_there hl e2
      clear hx hy
      simp only [e4, Res.ok.injEq, Prod.mk.injEq] at hz
      obtain ⟨rfl, rfl⟩ := hz
      rw [AMap.get?_set_self] at h'
      cases h'
      obtain ⟨clocks, x1, x2, x3⟩ := hp rfl _ _ _ hw e3
      exact ⟨_, .streamed clocks x1, x2, by rw [refRun_scans]; exact x3⟩
    · refine ⟨[], .nothing (by rintro _ _ _ _ _ _ _ ⟨⟩) ?_, ?_⟩
      · intro _ hc
        exact hk (Option.some.inj hc)
      · have hk' := keeps_act (X := X) (now := now) (drain := drain) (m := m) (.stream name f : Req σ α) rfl hk
        simp only [act, hx, Res.bind_ok] at hk'
        exact same (hk'.1.trans hg) rfl
  | source id c =>
    have hd : Did T k (.source id c : Req σ α) a [] := by
      refine .nothing (by rintro _ _ _ _ _ _ _ ⟨⟩) ?_
      rintro ⟨x, rfl⟩
      simp only [act] at h
      obtain ⟨_, _, h⟩ := ok_of_bind h
      simp at h
    refine ⟨[], hd, ?_⟩
    by_cases hk : c.name = k
    · subst hk
      simp only [act] at h
      obtain ⟨m1, e1, h⟩ := ok_of_bind h
      simp only [Res.ok.injEq, Prod.mk.injEq] at h
      obtain ⟨rfl, rfl⟩ := h
      unfold syncData at e1
      cases hx : DS.getOrCreate X now m c with
      | panic => rw [hx] at e1; cases e1
      | err e =>
        rw [hx] at e1
        cases e1
        exact same hg rfl
      | ok p =>
        obtain ⟨m2, d⟩ := p
        obtain ⟨s1, e2, e3⟩ := getOrCreate_there hl hx
        rw [hx] at e1
        simp only [e2, Res.ok.injEq] at e1
        subst e1
        refine same (AMap.get?_set_self _ _ _) ?_
        rw [← e3]
        simp only [addSource]
        have hi : (if s1.data.sources = none then s1.data.initData else s1.data).dbMap = s1.data.dbMap := by
          split
          · unfold Data.initData; split <;> rfl
          · rfl
        split
        · exact hi
        · split
          · exact hi
          · exact hi
    · exact other c.name rfl hk
  | janitor =>
    simp only [act, Res.ok.injEq, Prod.mk.injEq] at h
    obtain ⟨rfl, rfl⟩ := h
    refine ⟨[], .nothing (by rintro _ _ _ _ _ _ _ ⟨⟩) (by rintro ⟨x, ⟨⟩⟩), ?_⟩
    rw [get?_janitor hn, hg, Option.filter_some, if_pos (DS.lookup_some.mp hl).2] at h'
    cases h'
    exact ⟨hw, rfl⟩
  | forget =>
    simp only [act, Res.ok.injEq, Prod.mk.injEq] at h
    obtain ⟨rfl, rfl⟩ := h
    exact ⟨[], .nothing (by rintro _ _ _ _ _ _ _ ⟨⟩) (by rintro ⟨x, ⟨⟩⟩), same hg rfl⟩
  | reload info so ks =>
    simp only [act] at h
    obtain ⟨m1, e1, h⟩ := ok_of_bind h
    simp only [Res.ok.injEq, Prod.mk.injEq] at h
    obtain ⟨rfl, rfl⟩ := h
    refine ⟨[], .nothing (by rintro _ _ _ _ _ _ _ ⟨⟩) (by rintro ⟨x, ⟨⟩⟩), ?_⟩
    rcases DS.reloadRuns_spec e1 k with x | ⟨x, -⟩
    · exact same (x.trans hg) rfl
    · rw [x] at h'; cases h'
  | walk order =>
    simp only [act] at h
    obtain ⟨⟨m1, cs⟩, e1, h⟩ := ok_of_bind h
    simp only [Res.ok.injEq, Prod.mk.injEq] at h
    obtain ⟨rfl, rfl⟩ := h
    refine ⟨[], .nothing (by rintro _ _ _ _ _ _ _ ⟨⟩) (by rintro ⟨x, ⟨⟩⟩), ?_⟩
    obtain ⟨s1, e2, e3⟩ := walk_there hp hl e1
    exact same e2 (by rw [e3])

theorem queryEntry_dataset {now : Int} {fresh u v : String} {n n1 : Node} (hq : queryEntry now fresh n u = some (n1, v)) :
    n1.dataset = n.dataset := by
  unfold queryEntry at hq
  split at hq
  · simp only [Option.some.injEq, Prod.mk.injEq] at hq
    rw [← hq.1]
  · split at hq
    · split at hq
      · cases hq
      · simp only [Option.some.injEq, Prod.mk.injEq] at hq
        rw [← hq.1]
    · simp only [Option.some.injEq, Prod.mk.injEq] at hq
      rw [← hq.1]

theorem insert_no_err {nowS : Int64} {order : List SourceId} {call : Data.RemoteInsert σ} {dt : Data} {w : σ} {datum : Option Datum}
    {config : Option InsertConfig} {e : Err} : Data.insert nowS order call dt w datum config ≠ .err e := by
  have ofO : ∀ {γ : Type} {o : Option γ} {e : Err}, Res.ofOption o ≠ .err e := by
    intro γ o e
    cases o <;> simp [Res.ofOption]
  have bd : ∀ {γ δ : Type} {x : Res γ} {f : γ → Res δ}, (∀ e, x ≠ .err e) → (∀ a e, f a ≠ .err e) → ∀ e, x.bind f ≠ .err e := by
    intro γ δ x f hx hf e
    cases x with
    | ok a => exact hf a e
    | err e' => exact (hx e' rfl).elim
    | panic => simp
  unfold Data.insert
  split
  · simp
  · refine bd ?_ ?_ e
    · intro e
      unfold insertBDMap
      refine bd (fun e => ofO) (fun d => bd (fun e => ofO) ?_) e
      intro b e
      simp only
      split
      · refine bd (fun e => ofO) (fun _ => bd (fun e => ofO) ?_) e
        intro _ e
        split <;> simp [pure]
      · simp [pure]
    · intro p e
      refine bd (fun e => ofO) ?_ e
      intro dc e
      split
      · refine bd (fun e => ofO) (fun _ => bd (fun e => ofO) ?_) e
        intro d e
        simp
      · simp

/-- No request makes a name appear twice in the list. -/
theorem nodup_serve {X : DS.XEnv} {now : Int} {n n' : Node} {r : Req σ α} {a : Ans σ α} (hn : n.dataset.Nodup)
    (h : serve X now n r = .ok (n', a)) : n'.dataset.Nodup := by
  have hg : ∀ {n : Node} {x : Res (DS.DL × Ans σ α)} {m a}, n.dataset.Nodup → (∀ m a, x = .ok (m, a) → m.Nodup) → give n x = .ok (m, a) →
      m.dataset.Nodup := by
    intro n x m a hn hx hgv
    cases x with
    | ok p =>
      simp only [give, Res.ok.injEq, Prod.mk.injEq] at hgv
      obtain ⟨rfl, rfl⟩ := hgv
      exact hx _ _ rfl
    | err e =>
      simp only [give, Res.ok.injEq, Prod.mk.injEq] at hgv
      obtain ⟨rfl, rfl⟩ := hgv
      exact hn
    | panic => cases hgv
  have ha : ∀ {m : DS.DL} {r : Req σ α} {d : Bool} {k : String}, m.Nodup → concerns r = some k → ∀ m' a, act X now d m r = .ok (m', a) →
      m'.Nodup := by
    intro m r d k hm hr m' a hx
    have := same_act (X := X) (now := now) (drain := d) (k := k) rfl hm hm r hr
    rw [hx] at this
    exact this.2.2.1
  cases r with
  | search fresh c f =>
    simp only [serve] at h
    split at h
    · simp only [Res.ok.injEq, Prod.mk.injEq] at h
      obtain ⟨rfl, rfl⟩ := h
      exact hn
    · rename_i n1 u hq
      have : n1.dataset = n.dataset := by
        unfold queryEntry at hq
        split at hq
        · simp only [Option.some.injEq, Prod.mk.injEq] at hq
          rw [← hq.1]
        · split at hq
          · split at hq
            · cases hq
            · simp only [Option.some.injEq, Prod.mk.injEq] at hq
              rw [← hq.1]
          · simp only [Option.some.injEq, Prod.mk.injEq] at hq
            rw [← hq.1]
      exact hg (this ▸ hn) (ha (this ▸ hn) rfl) h
  | forget =>
    simp only [serve, Res.ok.injEq, Prod.mk.injEq] at h
    obtain ⟨rfl, rfl⟩ := h
    exact hn
  | janitor =>
    simp only [serve] at h
    exact hg hn (by rintro m a ⟨⟩; exact nodup_janitor hn) h
  | reload info so ks =>
    simp only [serve] at h
    refine hg hn ?_ h
    intro m a hx
    simp only [act] at hx
    obtain ⟨m1, e1, hx⟩ := ok_of_bind hx
    cases hx
    obtain ⟨_, _, _, e3, _⟩ := same_reload (k := "") rfl hn hn e1
    exact e3
  | walk order =>
    simp only [serve] at h
    refine hg hn ?_ h
    intro m a hx
    simp only [act] at hx
    obtain ⟨⟨m1, cs⟩, e1, hx⟩ := ok_of_bind hx
    cases hx
    obtain ⟨_, _, _, _, e3, _⟩ := same_walk (k := "") rfl hn hn e1
    exact e3
  | insert nowS order call w name datum config => simp only [serve] at h; exact hg hn (ha hn rfl) h
  | info name => simp only [serve] at h; exact hg hn (ha hn rfl) h
  | create c => simp only [serve] at h; exact hg hn (ha hn rfl) h
  | delete name => simp only [serve] at h; exact hg hn (ha hn rfl) h
  | stream name f => simp only [serve] at h; exact hg hn (ha hn rfl) h
  | source id c => simp only [serve] at h; exact hg hn (ha hn rfl) h

/-- One request. -/
theorem serve_contents {X : DS.XEnv} {T : Int64} {k : String} {now : Int} {n n' : Node} {r : Req σ α} {a : Ans σ α}
    {s s' : DS.Slot} (hn : n.dataset.Nodup) (hl : DS.lookup now n.dataset k = some s) (hw : WF s.data.dbMap) (hp : Proper T k r)
    (h : serve X now n r = .ok (n', a)) (h' : n'.dataset.get? k = some s') :
    ∃ ops, Did T k r a ops ∧ WF s'.data.dbMap ∧ abs s'.data.dbMap = refRun (abs s.data.dbMap) ops := by
  have hg : ∀ {n n' : Node} {d : Bool} {r : Req σ α} {a : Ans σ α}, n.dataset.Nodup → DS.lookup now n.dataset k = some s → Proper T k r →
      n'.dataset.get? k = some s' → give n (act X now d n.dataset r) = .ok (n', a) →
      ∃ ops, Did T k r a ops ∧ WF s'.data.dbMap ∧ abs s'.data.dbMap = refRun (abs s.data.dbMap) ops := by
    intro n n' d r a hn hl hp h' hgv
    cases hx : act X now d n.dataset r with
    | ok p =>
      obtain ⟨m, b⟩ := p
      rw [hx] at hgv
      simp only [give, Res.ok.injEq, Prod.mk.injEq] at hgv
      obtain ⟨rfl, rfl⟩ := hgv
      exact act_contents hn hl hw hp hx h'
    | err e =>
      rw [hx] at hgv
      simp only [give, Res.ok.injEq, Prod.mk.injEq] at hgv
      obtain ⟨rfl, rfl⟩ := hgv
      rw [(DS.lookup_some.mp hl).1] at h'
      cases h'
      refine ⟨[], .nothing ?_ (by rintro ⟨x, ⟨⟩⟩), hw, rfl⟩
      rintro nowS order call w name datum config rfl rfl
      obtain ⟨q, v, rfl⟩ := hp rfl
      simp only [act] at hx
      have : ∀ (m : DS.DL), DS.insert X d now nowS order call m w name (some ⟨some q, some v⟩) config ≠ .err e := by
        intro m hy
        unfold DS.insert at hy
        split at hy
        · cases hy
        · cases hz : DS.get X now m name with
          | err e => exact get_no_err hz
          | panic => rw [hz] at hy; cases hy
          | ok p =>
            rw [hz] at hy
            simp only [Res.bind_ok] at hy
            cases hd : Data.insert nowS order call p.2 w (some ⟨some q, some v⟩) config with
            | panic => rw [hd] at hy; cases hy
            | ok out =>
              rw [hd] at hy
              simp only [Res.bind_ok] at hy
              split at hy <;> cases hy
            | err e' => exact insert_no_err hd
      cases hy : DS.insert X d now nowS order call n.dataset w name (some ⟨some q, some v⟩) config with
      | ok p => rw [hy] at hx; cases hx
      | panic => rw [hy] at hx; cases hx
      | err e' =>
        rw [hy] at hx
        cases hx
        exact this _ hy
    | panic => rw [hx] at hgv; cases hgv
  cases r with
  | search fresh c f =>
    simp only [serve] at h
    split at h
    · simp only [Res.ok.injEq, Prod.mk.injEq] at h
      obtain ⟨rfl, rfl⟩ := h
      rw [(DS.lookup_some.mp hl).1] at h'
      cases h'
      exact ⟨[], .nothing (by rintro _ _ _ _ _ _ _ ⟨⟩) (by rintro ⟨x, ⟨⟩⟩), hw, rfl⟩
    · rename_i n1 u hq
      have hd : n1.dataset = n.dataset := queryEntry_dataset hq
      obtain ⟨ops, x1, x2, x3⟩ := hg (r := .search fresh { c with uuid := u } f) (d := n1.drain) (hd ▸ hn) (hd ▸ hl) hp h' h
      refine ⟨ops, ?_, x2, x3⟩
      generalize hr : (Req.search fresh { c with uuid := u } f : Req σ α) = r' at x1
      cases x1 with
      | stored => cases hr
      | refused => cases hr
      | searched clocks hx hc =>
        cases hr
        exact .searched clocks hx hc
      | streamed => cases hr
      | nothing h1 h2 =>
        subst hr
        exact .nothing (by rintro _ _ _ _ _ _ _ ⟨⟩) h2
  | forget =>
    simp only [serve, Res.ok.injEq, Prod.mk.injEq] at h
    obtain ⟨rfl, rfl⟩ := h
    simp only [(DS.lookup_some.mp hl).1] at h'
    cases h'
    exact ⟨[], .nothing (by rintro _ _ _ _ _ _ _ ⟨⟩) (by rintro ⟨x, ⟨⟩⟩), hw, rfl⟩
  | janitor => exact hg hn hl hp h' (by simpa only [serve] using h)
  | reload info so ks => exact hg hn hl hp h' (by simpa only [serve] using h)
  | walk order => exact hg hn hl hp h' (by simpa only [serve] using h)
  | insert nowS order call w name datum config => exact hg hn hl hp h' (by simpa only [serve] using h)
  | info name => exact hg hn hl hp h' (by simpa only [serve] using h)
  | create c => exact hg hn hl hp h' (by simpa only [serve] using h)
  | delete name => exact hg hn hl hp h' (by simpa only [serve] using h)
  | stream name f => exact hg hn hl hp h' (by simpa only [serve] using h)
  | source id c => exact hg hn hl hp h' (by simpa only [serve] using h)

theorem stays_head {X : DS.XEnv} {k : String} {rs : List (Int × Req σ α)} {n : Node} (h : Stays X k rs n) :
    (n.dataset.get? k).isSome = true := by
  cases rs with
  | nil => exact h
  | cons p rs =>
    obtain ⟨s, hs⟩ := Option.isSome_iff_exists.mp h.1
    rw [(DS.lookup_some.mp hs).1]
    rfl

/-- The operations of a history insert only what it inserts, and scan at its times. -/
theorem history_ops {T : Int64} {k : String} {rs : List (Int × Req σ α)} {as : List (Ans σ α)} {ops : List Op}
    (h : History T k rs as ops) {op : Op} (ho : op ∈ ops) :
    (∃ nowS q v config t order call w, op = .insert nowS q v config ∧
      (t, Req.insert nowS order call w k (some ⟨some q, some v⟩) config) ∈ rs) ∨
    ∃ clock : DatumKey → Int64, op = .scan clock ∧ ∀ q, clock q ≤ T := by
  induction h with
  | nil => cases ho
  | @cons t r rs a as ops ops' hd _ ih =>
    rcases List.mem_append.mp ho with ho | ho
    · cases hd with
      | stored =>
        rw [List.mem_singleton] at ho
        exact Or.inl ⟨_, _, _, _, _, _, _, _, ho, List.mem_cons_self⟩
      | refused => cases ho
      | searched clocks hc _ =>
        obtain ⟨c, hm, rfl⟩ := List.mem_map.mp ho
        exact Or.inr ⟨c, rfl, hc c hm⟩
      | streamed clocks hc =>
        obtain ⟨c, hm, rfl⟩ := List.mem_map.mp ho
        exact Or.inr ⟨c, rfl, hc c hm⟩
      | nothing => cases ho
    · rcases ih ho with ⟨nowS, q, v, config, t, order, call, w, h1, h2⟩ | h1
      · exact Or.inl ⟨nowS, q, v, config, t, order, call, w, h1, List.mem_cons_of_mem _ h2⟩
      · exact Or.inr h1

/-- A scan whose callback reports no errors takes out all that has expired. -/
theorem loop_all {τ : Type} {cb : τ → Entry → Res (τ × Option Err)} (hcb : ∀ s e s' x, cb s e = .ok (s', x) → x = none) :
    ∀ {vs : List Visit} {m m' : DBMap} {s s' : τ} {x : Option Err}, loopDBMap cb vs m s = .ok (m', s', x) →
      m' = eraseAll m (expiredKeys vs)
  | [], m, m', s, s', x, h => by
    simp only [loopDBMap, Res.ok.injEq, Prod.mk.injEq] at h
    rw [← h.1]
    rfl
  | v :: vs, m, m', s, s', x, h => by
    rw [loopDBMap] at h
    split at h
    · rename_i hx
      have h2 : expiredKeys (v :: vs) = v.key :: expiredKeys vs := by simp [expiredKeys, hx]
      rw [h2]
      exact loop_all hcb h
    · rename_i hx
      have h2 : expiredKeys (v :: vs) = expiredKeys vs := by simp [expiredKeys, hx]
      rw [h2]
      obtain ⟨⟨s1, e⟩, h3, h4⟩ := ok_of_bind h
      have := hcb _ _ _ _ h3
      subst this
      exact loop_all hcb h4

theorem searchCb_no_err {E : Env} {q : Datum} {c c' : Search.Collector} {e : Entry} {x : Option Err}
    (h : Search.searchCb E q c e = .ok (c', x)) : x = none := by
  unfold Search.searchCb at h
  obtain ⟨p, _, h⟩ := ok_of_bind h
  split at h
  · obtain ⟨_, _, h⟩ := ok_of_bind h
    obtain ⟨_, _, h⟩ := ok_of_bind h
    obtain ⟨_, _, h⟩ := ok_of_bind h
    simp only [Res.ok.injEq, Prod.mk.injEq] at h
    exact h.2.symm
  · simp only [Res.ok.injEq, Prod.mk.injEq] at h
    exact h.2.symm

/-- The clock of a scan, key by key. -/
def clockOf (T : Int64) (vs : List Visit) (q : DatumKey) : Int64 :=
  match vs.find? fun v => decide (v.entry.datum.key = some q) with
  | some v => v.now
  | none => T

theorem clockOf_le {T : Int64} {vs : List Visit} (h : ∀ v ∈ vs, v.now ≤ T) (q : DatumKey) : clockOf T vs q ≤ T := by
  unfold clockOf
  cases hf : vs.find? fun v => decide (v.entry.datum.key = some q) with
  | none => exact Int64.le_refl _
  | some v => exact h v (List.mem_of_find?_eq_some hf)

theorem clockOf_eq {T : Int64} {m : DBMap} {vs : List Visit} (hw : WF m) (hr : IsRange m vs) :
    ∀ v ∈ vs, ∀ q, v.entry.datum.key = some q → v.now = clockOf T vs q := by
  intro v hv q hq
  unfold clockOf
  cases hf : vs.find? fun v => decide (v.entry.datum.key = some q) with
  | none =>
    have := List.find?_eq_none.mp hf v hv
    simp [hq] at this
  | some w =>
    have hw1 := List.mem_of_find?_eq_some hf
    have hw2 : w.entry.datum.key = some q := by simpa using List.find?_some hf
    have hkey : ∀ u ∈ vs, u.entry.datum.key = some q → u.key = encKey q := by
      intro u hu huq
      obtain ⟨k', hk', hb⟩ := hw.keyed _ _ (AMap.mem_of_get? (range_get? hw.nodup hr u hu))
      rw [huq] at hk'
      cases hk'
      exact hb
    have h1 : (vs.map (·.key)).Nodup := by
      have := (AMap.nodup_perm hr).2 hw.nodup
      simpa [AMap.Nodup, AMap.keys, Function.comp_def] using this
    have hinj : v = w := List.inj_on_of_nodup_map h1 hv hw1 (by rw [hkey v hv hq, hkey w hw1 hw2])
    rw [hinj]

/-- node/nodeservice.go:80-104 `DataStream` with data/newsync.go:229-237 `StreamAll`; `visits` is the order and the times of the scan. -/
def streamOf (visits : Data → List Visit) (dt : Data) : Res (Data × List Datum) :=
  (streamAll (visits dt) dt.dbMap).bind fun (m, out, e) =>
  match e with
  | some x => .err x
  | none => .ok ({ dt with dbMap := m }, out)

/-- data/search.go:130-149 `StreamSearch` for one datum, on the data set as it is when the request comes. -/
def searchOf (E : Env) (visits : Data → List Visit) (answer : Data → List Nat) (datum : Datum) (c : SearchConfig) (dt : Data) :
    Res (Data × List ScoredDatum) :=
  Search.streamSearch E (visits dt) (answer dt) dt datum (some c)

end Iso

/-- What the scans need: every entry once, at times up to `T`. -/
def Ref.Visits (T : Int64) (visits : Data → List Visit) : Prop :=
  ∀ dt, IsRange dt.dbMap (visits dt) ∧ ∀ v ∈ visits dt, v.now ≤ T

/-- C173: streams and searches as modelled scan. -/
theorem C173_stream_scans (T : Int64) (visits : Data → List Visit) (hv : Ref.Visits T visits) : Scans T (streamOf visits) := by
  intro dt dt' a hw h
  obtain ⟨h1, h2⟩ := hv dt
  unfold streamOf at h
  rw [streamAll_eq] at h
  simp only [Res.bind_ok, Res.ok.injEq, Prod.mk.injEq] at h
  obtain ⟨rfl, -⟩ := h
  exact ⟨[clockOf T (visits dt)], by simpa using clockOf_le h2, wf_eraseAll _ hw, scan_abs hw h1 (clockOf_eq hw h1)⟩

theorem C173_search_scans (E : Env) (T : Int64) (visits : Data → List Visit) (answer : Data → List Nat) (datum : Datum)
    (c : SearchConfig) (hv : Ref.Visits T visits) : Scans T (searchOf E visits answer datum c) := by
  intro dt dt' a hw h
  obtain ⟨h1, h2⟩ := hv dt
  have hs : ∀ {c' col}, Search.search E (visits dt) dt datum c' = .ok (dt', col) → ∃ clocks : List (DatumKey → Int64),
      (∀ c ∈ clocks, ∀ q, c q ≤ T) ∧ WF dt'.dbMap ∧ abs dt'.dbMap = clocks.foldl afterScan (abs dt.dbMap) := by
    intro c' col hx
    unfold Search.search at hx
    obtain ⟨⟨m, c1, e⟩, hy, hz⟩ := ok_of_bind hx
    simp only [Res.ok.injEq, Prod.mk.injEq] at hz
    obtain ⟨rfl, -⟩ := hz
    have := loop_all (fun s e s' x h => searchCb_no_err h) hy
    subst this
    exact ⟨[clockOf T (visits dt)], by simpa using clockOf_le h2, wf_eraseAll _ hw, scan_abs hw h1 (clockOf_eq hw h1)⟩
  unfold searchOf Search.streamSearch at h
  obtain ⟨⟨d, col⟩, hx, hy⟩ := ok_of_bind h
  simp only [Res.ok.injEq, Prod.mk.injEq] at hy
  obtain ⟨rfl, -⟩ := hy
  split at hx
  · unfold Search.searchAnnoy at hx
    split at hx
    · exact hs hx
    · split at hx
      · exact hs hx
      · obtain ⟨_, _, hx⟩ := ok_of_bind hx
        obtain ⟨_, _, hx⟩ := ok_of_bind hx
        simp only [Res.ok.injEq, Prod.mk.injEq] at hx
        obtain ⟨rfl, -⟩ := hx
        exact ⟨[], by simp, hw, rfl⟩
  · exact hs hx

/-- C173: scans one after the other (the data of a search with several) are scans. -/
theorem C173_then {α β γ : Type} (T : Int64) (f : Data → Res (Data × α)) (g : α → Data → Res (Data × β)) (j : α → β → γ) (hf : Scans T f)
    (hg : ∀ a, Scans T (g a)) : Scans T fun dt => (f dt).bind fun (dt, a) => (g a dt).bind fun (dt, b) => .ok (dt, j a b) := by
  intro dt dt' c hw h
  obtain ⟨⟨d1, a⟩, h1, h⟩ := ok_of_bind h
  obtain ⟨⟨d2, b⟩, h2, h⟩ := ok_of_bind h
  simp only [Res.ok.injEq, Prod.mk.injEq] at h
  obtain ⟨rfl, -⟩ := h
  obtain ⟨c1, x1, x2, x3⟩ := hf _ _ _ hw h1
  obtain ⟨c2, y1, y2, y3⟩ := hg _ _ _ _ x2 h2
  refine ⟨c1 ++ c2, ?_, y2, by rw [List.foldl_append, ← x3]; exact y3⟩
  intro c hc
  rcases List.mem_append.mp hc with hc | hc
  · exact x1 c hc
  · exact y1 c hc

/-- C173.  While a data set is there, it holds what its contents at the beginning and the requests with their answers say: the
inserts that were not refused, in their order, less what scans have found expired.  No other request, and nothing in the
background, changes it. -/
theorem C173_contents {σ α : Type} (X : DS.XEnv) (T : Int64) (k : String) : ∀ (rs : List (Int × Req σ α)) (n n' : Node)
    (as : List (Ans σ α)) (s : DS.Slot), n.dataset.Nodup → n.dataset.get? k = some s → WF s.data.dbMap →
    (∀ r ∈ rs, Proper T k r.2) → Stays X k rs n → run X rs n = .ok (n', as) →
    ∃ ops s', History T k rs as ops ∧ n'.dataset.get? k = some s' ∧ WF s'.data.dbMap ∧
      abs s'.data.dbMap = refRun (abs s.data.dbMap) ops
  | [], n, n', as, s, _, hg, hw, _, _, h => by
    simp only [run, Res.ok.injEq, Prod.mk.injEq] at h
    obtain ⟨rfl, rfl⟩ := h
    exact ⟨[], s, .nil, hg, hw, rfl⟩
  | (t, r) :: rs, n, n', as, s, hn, hg, hw, hp, hst, h => by
    simp only [run] at h
    obtain ⟨⟨n1, a⟩, h1, h⟩ := ok_of_bind h
    obtain ⟨⟨n2, as2⟩, h2, h⟩ := ok_of_bind h
    simp only [Res.ok.injEq, Prod.mk.injEq] at h
    obtain ⟨rfl, rfl⟩ := h
    obtain ⟨hs1, hs2⟩ := hst
    obtain ⟨s0, hs0⟩ := Option.isSome_iff_exists.mp hs1
    have e0 := (DS.lookup_some.mp hs0).1
    rw [hg] at e0
    cases e0
    have hst1 := hs2 n1 a h1
    obtain ⟨s1, e1⟩ := Option.isSome_iff_exists.mp (stays_head hst1)
    obtain ⟨ops, x1, x2, x3⟩ := serve_contents hn hs0 hw (hp _ List.mem_cons_self) h1 e1
    obtain ⟨ops', s', y1, y2, y3, y4⟩ := C173_contents X T k rs n1 n2 as2 s1 (nodup_serve hn h1) e1 x2
      (fun r hr => hp r (List.mem_cons_of_mem _ hr)) hst1 h2
    exact ⟨ops ++ ops', s', .cons x1 y1, y2, y3, by rw [y4, x3, refRun_append]⟩

/-- C173, what a client sees: a stream afterwards lists exactly what the reference map shows, each key once. -/
theorem C173_seen {σ : Type} (X : DS.XEnv) (T : Int64) (k : String) (rs : List (Int × Req σ (List Datum))) (n n' : Node)
    (as : List (Ans σ (List Datum))) (s : DS.Slot) (hn : n.dataset.Nodup) (hg : n.dataset.get? k = some s) (hw : WF s.data.dbMap)
    (hp : ∀ r ∈ rs, Proper T k r.2) (hst : Stays X k rs n) (h : run X rs n = .ok (n', as)) (t : Int) (visits : Data → List Visit)
    (hv : Ref.Visits T visits) (hl : (DS.lookup t n'.dataset k).isSome = true) (n'' : Node) (a : Ans σ (List Datum))
    (h2 : serve X t n' (.stream k (streamOf visits)) = .ok (n'', a)) :
    ∃ ops clock out, History T k rs as ops ∧ (∀ q, clock q ≤ T) ∧ a = .found out ∧ (out.map (·.key)).Nodup ∧
      (∀ d ∈ out, ∃ q v, d = ⟨some q, some v⟩) ∧
      ∀ q v, (⟨some q, some v⟩ : Datum) ∈ out ↔ Ref.shows (refRun (abs s.data.dbMap) ops) clock q v := by
  obtain ⟨ops, s', x1, x2, x3, x4⟩ := C173_contents X T k rs n n' as s hn hg hw hp hst h
  obtain ⟨s0, hs0⟩ := Option.isSome_iff_exists.mp hl
  have e0 := (DS.lookup_some.mp hs0).1
  rw [x2] at e0
  cases e0
  obtain ⟨v1, v2⟩ := hv s'.data
  simp only [serve, act] at h2
  cases hx : stream X t n'.dataset k (streamOf visits) with
  | panic => rw [hx] at h2; cases h2
  | err e =>
    unfold stream at hx
    cases hy : DS.get X t n'.dataset k with
    | err e => exact (get_no_err hy).elim
    | panic => rw [hy] at hx; cases hx
    | ok p =>
      obtain ⟨m2, d⟩ := p
      obtain ⟨rfl, e, e4⟩ := get_there hs0 hy
      rw [hy] at hx
      simp only [Res.bind_ok, streamOf, streamAll_eq, e4] at hx
      cases hx
  | ok p =>
    obtain ⟨m1, out⟩ := p
    rw [hx] at h2
    simp only [Res.bind_ok, give, Res.ok.injEq, Prod.mk.injEq] at h2
    obtain ⟨-, rfl⟩ := h2
    unfold stream at hx
    obtain ⟨⟨m2, d⟩, e2, hy⟩ := ok_of_bind hx
    obtain ⟨⟨d', y⟩, e3, hz⟩ := ok_of_bind hy
    obtain ⟨rfl, e, e4⟩ := get_there hs0 e2
    clear hx hy
    simp only [e4, Res.ok.injEq, Prod.mk.injEq] at hz
    obtain ⟨-, rfl⟩ := hz
    unfold streamOf at e3
    rw [streamAll_eq] at e3
    simp only [Res.bind_ok, Res.ok.injEq, Prod.mk.injEq] at e3
    obtain ⟨-, rfl⟩ := e3
    refine ⟨ops, clockOf T (visits s'.data), _, x1, clockOf_le v2, rfl, nodup_out x3 v1, ?_, ?_⟩
    · intro d hd
      obtain ⟨e, he, hd⟩ := List.mem_map.1 hd
      obtain ⟨q, v, hq⟩ := Search.live_keyed x3 v1 e he
      exact ⟨q, v, by rw [← hd, hq]⟩
    · intro q v
      rw [← x4]
      exact scan_out x3 v1 (clockOf_eq x3 v1) q v

/-- C173, what a search of the node's own data answers: the best of what the reference map shows. -/
theorem C173_found {σ : Type} (X : DS.XEnv) (E : Env) (hE : E.Ok) (T : Int64) (k : String) (rs : List (Int × Req σ (List ScoredDatum)))
    (n n' : Node) (as : List (Ans σ (List ScoredDatum))) (s : DS.Slot) (hn : n.dataset.Nodup) (hg : n.dataset.get? k = some s)
    (hw : WF s.data.dbMap) (hp : ∀ r ∈ rs, Proper T k r.2) (hst : Stays X k rs n) (h : run X rs n = .ok (n', as)) (t : Int)
    (visits : Data → List Visit) (answer : Data → List Nat) (hv : Ref.Visits T visits)
    (hl : (DS.lookup t n'.dataset k).isSome = true) (fresh : String) (config : SearchConfig) (hk : config.dataName = k)
    (hu : config.uuid = "") (hlim : 0 < config.limit) (hname : ¬ "Annoy".toList <+: config.scoreFuncName.toList) (q : DatumKey)
    (qv : Option DatumValue)
    (hnan : ∀ ops clock sd, History T k rs as ops →
      Ref.IsHit E config q (Ref.shows (refRun (abs s.data.dbMap) ops) clock) sd → F64.isNaN sd.score = false) :
    ∃ ops clock n'' out cands, History T k rs as ops ∧ (∀ q, clock q ≤ T) ∧
      serve X t n' (.search fresh config (searchOf E visits answer ⟨some q, qv⟩) : Req σ _) = .ok (n'', .found out) ∧ cands.Nodup ∧
      (∀ sd, sd ∈ cands ↔ Ref.IsHit E config q (Ref.shows (refRun (abs s.data.dbMap) ops) clock) sd) ∧
      IsTopK (Ref.better config.higherIsBetter) config.limit.toNat cands out := by
  obtain ⟨ops, s', x1, x2, x3, x4⟩ := C173_contents X T k rs n n' as s hn hg hw hp hst h
  obtain ⟨s0, hs0⟩ := Option.isSome_iff_exists.mp hl
  have e0 := (DS.lookup_some.mp hs0).1
  rw [x2] at e0
  cases e0
  obtain ⟨v1, v2⟩ := hv s'.data
  subst hk
  obtain ⟨dt', out, cands, y1, y2, y3, y4⟩ := C22_streamed_top_k E hE s'.data (visits s'.data) (answer s'.data)
    (clockOf T (visits s'.data)) q qv { config with uuid := fresh } x3 v1 (clockOf_eq x3 v1) hlim hname
    (fun sd hsd => hnan ops (clockOf T (visits s'.data)) sd x1 (by rw [x4] at hsd; exact hsd))
  have hs : ∃ n'', serve X t n' (.search fresh config (searchOf E visits answer ⟨some q, qv⟩) : Req σ _) = .ok (n'', .found out) := by
    have hq : queryEntry t fresh n' config.uuid = some (n', fresh) := by
      unfold queryEntry
      rw [if_pos hu]
    have hd : DS.search t n'.dataset config.dataName (searchOf E visits answer ⟨some q, qv⟩ { config with uuid := fresh }) =
        .ok (n'.dataset.set config.dataName { s' with data := dt' }, out) := by
      unfold DS.search DS.getNoCreate
      rw [hs0]
      simp only [Res.bind_ok]
      have : searchOf E visits answer ⟨some q, qv⟩ { config with uuid := fresh } s'.data = .ok (dt', out) := y1
      rw [this]
      simp only [Res.bind_ok]
      rw [x2]
    have ha : act X t n'.drain n'.dataset (.search fresh { config with uuid := fresh } (searchOf E visits answer ⟨some q, qv⟩) : Req σ _) =
        .ok (n'.dataset.set config.dataName { s' with data := dt' }, .found out) := by
      unfold act
      simp only
      rw [hd]
      rfl
    refine ⟨{ n' with dataset := n'.dataset.set config.dataName { s' with data := dt' } }, ?_⟩
    unfold serve
    simp only
    rw [hq]
    simp only
    rw [ha]
    rfl
  obtain ⟨n'', hs⟩ := hs
  refine ⟨ops, clockOf T (visits s'.data), n'', out, cands, x1, clockOf_le v2, hs, y2, ?_, y4⟩
  intro sd
  rw [← x4]
  exact y3 sd

/-- C173: a datum stays, as it is, until it expires or is inserted again. -/
theorem C173_stays {σ α : Type} (X : DS.XEnv) (T : Int64) (k : String) (rs : List (Int × Req σ α)) (n n' : Node)
    (as : List (Ans σ α)) (s : DS.Slot) (hn : n.dataset.Nodup) (hg : n.dataset.get? k = some s) (hw : WF s.data.dbMap)
    (hp : ∀ r ∈ rs, Proper T k r.2) (hst : Stays X k rs n) (h : run X rs n = .ok (n', as)) (q : DatumKey) (x : Ref.Rec)
    (hq : abs s.data.dbMap q = some x) (hx : x.alive T)
    (hi : ∀ t nowS order call w v config, (t, Req.insert nowS order call w k (some ⟨some q, v⟩) config) ∉ rs) :
    ∃ s', n'.dataset.get? k = some s' ∧ abs s'.data.dbMap q = some x := by
  obtain ⟨ops, s', x1, x2, x3, x4⟩ := C173_contents X T k rs n n' as s hn hg hw hp hst h
  refine ⟨s', x2, ?_⟩
  rw [x4]
  refine refRun_keeps ops _ q x ?_ ?_ hq
  · intro op ho hwr
    rcases history_ops x1 ho with ⟨nowS, q', v, config, t, order, call, w, rfl, h2⟩ | ⟨clock, rfl, -⟩
    · simp only [Op.writes] at hwr
      subst hwr
      exact hi _ _ _ _ _ _ _ h2
    · exact hwr
  · rcases hx with hx | hx
    · exact Or.inl hx
    · refine Or.inr ?_
      intro op ho
      rcases history_ops x1 ho with ⟨nowS, q', v, config, t, order, call, w, rfl, h2⟩ | ⟨clock, rfl, hc⟩
      · trivial
      · simp only [Op.before]
        have h1 := Int64.le_iff_toInt_le.mp (hc q)
        have h2 := Int64.lt_iff_toInt_lt.mp hx
        omega

/-- C173: nothing appears in a data set that was not inserted into it. -/
theorem C173_nothing_new {σ α : Type} (X : DS.XEnv) (T : Int64) (k : String) (rs : List (Int × Req σ α)) (n n' : Node)
    (as : List (Ans σ α)) (s s' : DS.Slot) (hn : n.dataset.Nodup) (hg : n.dataset.get? k = some s) (hw : WF s.data.dbMap)
    (hp : ∀ r ∈ rs, Proper T k r.2) (hst : Stays X k rs n) (h : run X rs n = .ok (n', as)) (hg' : n'.dataset.get? k = some s')
    (q : DatumKey) (x : Ref.Rec) (hq : abs s'.data.dbMap q = some x)
    (hi : ∀ t nowS order call w v config, (t, Req.insert nowS order call w k (some ⟨some q, v⟩) config) ∉ rs) :
    abs s.data.dbMap q = some x := by
  obtain ⟨ops, s1, x1, x2, x3, x4⟩ := C173_contents X T k rs n n' as s hn hg hw hp hst h
  rw [x2] at hg'
  cases hg'
  rw [x4] at hq
  refine refRun_not_inserts ops _ q ?_ x hq
  intro op ho hwr
  rcases history_ops x1 ho with ⟨nowS, q', v, config, t, order, call, w, rfl, h2⟩ | ⟨clock, rfl, -⟩
  · simp only [Op.inserts] at hwr
    subst hwr
    exact hi _ _ _ _ _ _ _ h2
  · exact hwr

namespace Iso

/-- `Stays`, by computing. -/
def staysB {σ α : Type} (X : DS.XEnv) (k : String) : List (Int × Req σ α) → Node → Bool
  | [], n => (n.dataset.get? k).isSome
  | (t, r) :: rs, n =>
    (DS.lookup t n.dataset k).isSome &&
    match serve X t n r with
    | .ok (n', _) => staysB X k rs n'
    | _ => true

theorem stays_of {σ α : Type} {X : DS.XEnv} {k : String} : ∀ {rs : List (Int × Req σ α)} {n : Node}, staysB X k rs n = true → Stays X k rs n
  | [], _, h => h
  | (t, r) :: rs, n, h => by
    simp only [staysB, Bool.and_eq_true] at h
    refine ⟨h.1, ?_⟩
    intro n' a hs
    have := h.2
    rw [hs] at this
    exact stays_of this

/-- A node with an empty data set. -/
def exHolder : Node := { exNode with dataset := [("a", ⟨Data.newData (DS.defaultConfig "a"), none⟩)] }

def exAt (i : UInt32) : DatumKey := ⟨[0x3F800000], [], i, 0, 1, 0⟩

def exPut (name : String) (nowS : Int64) (i : UInt32) (c : Option InsertConfig) : Req Unit (List Datum) :=
  .insert nowS [] (fun _ _ _ w => (w, none)) () name (some ⟨some (exAt i), some ⟨1, [7]⟩⟩) c

/-- A scan in the order of the store, a thousand seconds after the epoch. -/
def exScan (dt : Data) : List Visit := dt.dbMap.map fun p => ⟨p.1, p.2, 1000⟩

def exLook : Req Unit (List Datum) :=
  .search "r" { Search.defaultSearchConfig with dataName := "a" } fun c dt =>
    (searchOf Search.exEnv exScan (fun _ => []) ⟨some (exAt 9), none⟩ c dt).bind fun (dt, l) =>
    (Res.ok (dt, ())).bind fun (dt, _) => .ok (dt, l.map (·.datum))

/-- A datum to stay, one that lives for five seconds, one for another data set; a search at 1000, and the background. -/
def exDay : List (Int × Req Unit (List Datum)) :=
  [(0, exPut "a" 989 1 none), (1, exPut "a" 990 2 (some ⟨5, 0⟩)), (2, exPut "b" 990 3 none), (3, exLook), (4, .janitor),
   (5, .walk ["b", "a"]), (6, .info "a"), (7, .delete "b")]

theorem exScan_visits : Ref.Visits 1000 exScan := by
  intro dt
  refine ⟨?_, ?_⟩
  · unfold IsRange exScan
    rw [List.map_map]
    exact (List.map_id dt.dbMap).symm ▸ List.Perm.refl _
  · intro v hv
    obtain ⟨p, _, rfl⟩ := List.mem_map.mp hv
    exact Int64.le_refl _

end Iso

/-- C173: a day of a node.  The first datum is there at its end; the second has expired. -/
theorem C173_example : exHolder.dataset.Nodup ∧ (∃ s, exHolder.dataset.get? "a" = some s ∧ WF s.data.dbMap) ∧
    (∀ r ∈ exDay, Proper 1000 "a" r.2) ∧ Stays (DS.toy 0) "a" exDay exHolder ∧
    ∃ n' as s', run (DS.toy 0) exDay exHolder = .ok (n', as) ∧ n'.dataset.get? "a" = some s' ∧
      abs s'.data.dbMap (exAt 1) = some ⟨⟨1, [7]⟩, 0⟩ ∧ abs s'.data.dbMap (exAt 2) = none ∧ as.length = 8 ∧
      as.head? = some (.inserted () none) := by
  refine ⟨by unfold AMap.Nodup; decide, ⟨_, rfl, wf_nil⟩, ?_, stays_of (by decide +kernel), ?_⟩
  · intro r hr
    simp only [exDay, List.mem_cons, List.not_mem_nil, or_false] at hr
    rcases hr with rfl | rfl | rfl | rfl | rfl | rfl | rfl | rfl
    · exact fun _ => ⟨_, _, rfl⟩
    · exact fun _ => ⟨_, _, rfl⟩
    · exact fun _ => ⟨_, _, rfl⟩
    · intro _ c
      exact C173_then 1000 _ (fun _ dt => .ok (dt, ())) (fun l _ => l.map (·.datum))
        (C173_search_scans Search.exEnv 1000 exScan _ _ c exScan_visits) (fun _ dt dt' _ hw h => by
          cases h
          exact ⟨[], by simp, hw, rfl⟩)
    · trivial
    · exact (by decide : ["b", "a"].Nodup)
    · trivial
    · trivial
  · have h : (match run (DS.toy 0) exDay exHolder with
        | .ok (n', as) => (n'.dataset.get? "a").any fun s' => decide (abs s'.data.dbMap (exAt 1) = some ⟨⟨1, [7]⟩, 0⟩ ∧
            abs s'.data.dbMap (exAt 2) = none ∧ as.length = 8 ∧ as.head? = some (.inserted () none))
        | _ => false) = true := by decide +kernel
    cases hr : run (DS.toy 0) exDay exHolder with
    | err _ => rw [hr] at h; cases h
    | panic => rw [hr] at h; cases h
    | ok p =>
      obtain ⟨n', as⟩ := p
      rw [hr] at h
      obtain ⟨s', h1, h2⟩ := DS.any_some h
      obtain ⟨y1, y2, y3, y4⟩ := of_decide_eq_true h2
      exact ⟨n', as, s', rfl, h1, y1, y2, y3, y4⟩

namespace Iso

def exOne : List (Int × Req Unit (List ScoredDatum)) :=
  [(0, .insert 989 [] (fun _ _ _ w => (w, none)) () "a" (some ⟨some (exAt 1), some ⟨1, [7]⟩⟩) none)]

end Iso

/-- C173, for a search: the hypotheses are met after an insert; the answer is the datum, at distance zero. -/
theorem C173_found_example : ∃ n' as, run (DS.toy 0) exOne exHolder = .ok (n', as) ∧ Stays (DS.toy 0) "a" exOne exHolder ∧
    (∀ r ∈ exOne, Proper 1000 "a" r.2) ∧
    (∀ ops clock sd, History 1000 "a" exOne as ops → Ref.IsHit Search.exEnv { Search.defaultSearchConfig with dataName := "a" } (exAt 9)
      (Ref.shows (refRun (abs []) ops) clock) sd → F64.isNaN sd.score = false) ∧
    ∃ n'', serve (DS.toy 0) 1 n' (.search "r" { Search.defaultSearchConfig with dataName := "a" }
      (searchOf Search.exEnv exScan (fun _ => []) ⟨some (exAt 9), none⟩) : Req Unit (List ScoredDatum)) =
        .ok (n'', .found [⟨0, ⟨some (exAt 1), some ⟨1, [7]⟩⟩⟩]) := by
  have h : (match run (DS.toy 0) exOne exHolder with
      | .ok (n', as) => decide (as = [.inserted () none]) &&
        (match serve (DS.toy 0) 1 n' (.search "r" { Search.defaultSearchConfig with dataName := "a" }
          (searchOf Search.exEnv exScan (fun _ => []) ⟨some (exAt 9), none⟩) : Req Unit (List ScoredDatum)) with
        | .ok (_, a) => decide (a = .found [⟨0, ⟨some (exAt 1), some ⟨1, [7]⟩⟩⟩])
        | _ => false)
      | _ => false) = true := by decide +kernel
  cases hr : run (DS.toy 0) exOne exHolder with
  | err _ => rw [hr] at h; cases h
  | panic => rw [hr] at h; cases h
  | ok p =>
    obtain ⟨n', as⟩ := p
    rw [hr] at h
    simp only [Bool.and_eq_true, decide_eq_true_eq] at h
    obtain ⟨rfl, h⟩ := h
    refine ⟨n', _, rfl, stays_of (by decide +kernel), ?_, ?_, ?_⟩
    · intro r hm
      simp only [exOne, List.mem_singleton] at hm
      subst hm
      exact fun _ => ⟨_, _, rfl⟩
    · rintro ops clock sd hh ⟨k, v, -, ⟨x, hx, -, -⟩, -, hs⟩
      rw [hs]
      have hk : k = exAt 1 := by
        refine Decidable.byContradiction fun hne => ?_
        have : ∀ op ∈ ops, ¬ op.inserts k := by
          intro op ho hi
          rcases history_ops hh ho with ⟨nowS, q, v, config, t, order, call, w, rfl, h2⟩ | ⟨c, rfl, -⟩
          · simp only [exOne, List.mem_singleton, Prod.mk.injEq, Req.insert.injEq, Option.some.injEq, Datum.mk.injEq] at h2
            simp only [Op.inserts] at hi
            exact hne (hi.symm.trans h2.2.2.2.2.2.2.1.1)
          · exact hi
        have h0 := refRun_not_inserts ops _ k this x hx
        cases h0
      rw [hk]
      decide +kernel
    · cases hs : serve (DS.toy 0) 1 n' (.search "r" { Search.defaultSearchConfig with dataName := "a" }
          (searchOf Search.exEnv exScan (fun _ => []) ⟨some (exAt 9), none⟩) : Req Unit (List ScoredDatum)) with
      | err _ => rw [hs] at h; cases h
      | panic => rw [hs] at h; cases h
      | ok q =>
        obtain ⟨n'', a⟩ := q
        rw [hs] at h
        simp only [decide_eq_true_eq] at h
        subst h
        exact ⟨n'', rfl⟩

end Veri
