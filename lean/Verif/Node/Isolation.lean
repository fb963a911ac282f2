import Verif.Cluster.Model
import Verif.Dataset.Conc
/-
C166, C167: the data sets of a node do not concern each other.  The requests of node/nodeservice.go one after the other, with the
background activity between them.
-/
set_option autoImplicit false
namespace Veri
open Net

namespace Iso

/-- What happens at a node, as far as its data sets are concerned. -/
inductive Req (σ α : Type) where
  /-- node/nodeservice.go:35-51 `Insert`; `w` is the state of the world the calls of other nodes are given -/
  | insert (nowS : Int64) (order : List SourceId) (call : Data.RemoteInsert σ) (w : σ) (name : String) (datum : Option Datum)
      (config : Option InsertConfig)
  /-- node/nodeservice.go:106-116 `GetDataInfo` -/
  | info (name : String)
  /-- node/nodeservice.go:221-229 `CreateDataIfNotExists` -/
  | create (c : DataConfig)
  /-- data/dataset.go:132-143 `Delete` -/
  | delete (name : String)
  /-- node/nodeservice.go:118-154 `SearchStream`: `fresh` is `uuid.NewRandom()`, `f` is `MultiAggregatedSearch` on the object found -/
  | search (fresh : String) (config : SearchConfig) (f : SearchConfig → Data → Res (Data × α))
  /-- node/nodeservice.go:81-104 `DataStream`: `f` is `StreamAll` on the object found -/
  | stream (name : String) (f : Data → Res (Data × α))
  /-- node/node.go:254-262, one data set of a peer -/
  | source (id : String) (c : DataConfig)
  /-- go-cache janitor of `DataList` -/
  | janitor
  /-- go-cache janitor of `QueryUUIDCache` -/
  | forget
  /-- data/dataset.go:190-207 `ReloadRuns` -/
  | reload (info : String → SourceId → Option DataInfo) (order : String → List SourceId) (ks : List String)
  /-- the loops of `SaveIndex` and `DataConfigList`, which prolong what they pass -/
  | walk (order : List String)

/-- What the caller gets. -/
inductive Ans (σ α : Type) where
  | inserted (w : σ) (e : Option Err)
  | info (i : DataInfo)
  | found (a : α)
  /-- the query has been here before: an empty answer, no error -/
  | nothing
  | done
  | failed (e : Err)
  deriving DecidableEq

/-- The handler returns; an error leaves the list of data sets as it is. -/
def give {σ α : Type} (n : Node) : Res (DS.DL × Ans σ α) → Res (Node × Ans σ α)
  | .ok (m, a) => .ok ({ n with dataset := m }, a)
  | .err e => .ok (n, .failed e)
  | .panic => .panic

/-- node/nodeservice.go:81-104 `DataStream`, as far as the list is concerned. -/
def stream {α : Type} (X : DS.XEnv) (now : Int) (m : DS.DL) (name : String) (f : Data → Res (Data × α)) : Res (DS.DL × α) :=
  (DS.get X now m name).bind fun (m, dt) =>
  (f dt).bind fun (dt, a) =>
  match m.get? name with
  | none => .panic
  | some s => .ok (m.set name { s with data := dt }, a)

/-- The effect on the list of data sets, and the answer. -/
def act {σ α : Type} (X : DS.XEnv) (now : Int) (drain : Bool) (m : DS.DL) : Req σ α → Res (DS.DL × Ans σ α)
  | .insert nowS order call w name datum config =>
    (DS.insert X drain now nowS order call m w name datum config).bind fun (m, w, e) => .ok (m, .inserted w e)
  | .info name => (DS.getDataInfo X now m name).bind fun (m, i) => .ok (m, .info i)
  | .create c => (DS.getOrCreate X now m c).bind fun (m, dt) => dt.getDataInfo.bind fun i => .ok (m, .info i)
  | .delete name => (DS.delete now m name).bind fun m => .ok (m, .done)
  | .search _ c f => (DS.search now m c.dataName (f c)).bind fun (m, a) => .ok (m, .found a)
  | .stream name f => (stream X now m name f).bind fun (m, a) => .ok (m, .found a)
  | .source id c => (syncData X now id m c).bind fun m => .ok (m, .done)
  | .janitor => .ok (DS.janitor now m, .done)
  | .forget => .ok (m, .done)
  | .reload info order ks => (DS.reloadRuns now info order ks m).bind fun m => .ok (m, .done)
  | .walk order => (DS.walk X now order m).bind fun (m, _) => .ok (m, .done)

/-- One request, or one step of the background activity. -/
def serve {σ α : Type} (X : DS.XEnv) (now : Int) (n : Node) : Req σ α → Res (Node × Ans σ α)
  | .search fresh c f =>
    match queryEntry now fresh n c.uuid with
    | none => .ok (n, .nothing)
    | some (n, u) => give n (act X now n.drain n.dataset (.search fresh { c with uuid := u } f))
  | .forget => .ok ({ n with queries := n.queries.filter fun p => alive now p.2 }, .done)
  | r => give n (act X now n.drain n.dataset r)

/-- One after the other, each at its time. -/
def run {σ α : Type} (X : DS.XEnv) : List (Int × Req σ α) → Node → Res (Node × List (Ans σ α))
  | [], n => .ok (n, [])
  | (now, r) :: rs, n =>
    (serve X now n r).bind fun (n, a) => (run X rs n).bind fun (n, as) => .ok (n, a :: as)

end Iso

namespace Ref
open Iso

/-- The data set a request names; `none`: background activity, which concerns all. -/
def concerns {σ α : Type} : Req σ α → Option String
  | .insert _ _ _ _ name _ _ => some name
  | .info name => some name
  | .create c => some c.name
  | .delete name => some name
  | .search _ c _ => some c.dataName
  | .stream name _ => some name
  | .source _ c => some c.name
  | .janitor | .forget | .reload _ _ _ | .walk _ => none

/-- Requests for the data set `k`, and the background activity. -/
def About {σ α : Type} (k : String) (r : Req σ α) : Bool := decide (concerns r = none ∨ concerns r = some k)

/-- The background activity as far as it concerns `k`. -/
def only {σ α : Type} (k : String) : Req σ α → Req σ α
  | .reload info order ks => .reload info order (ks.filter (· = k))
  | .walk order => .walk (order.filter (· = k))
  | r => r

/-- The same history without the other data sets. -/
def alone {σ α : Type} (k : String) (rs : List (Int × Req σ α)) : List (Int × Req σ α) :=
  (rs.filter fun r => About k r.2).map fun r => (r.1, only k r.2)

/-- The answers to the requests for `k`. -/
def answersOf {σ α : Type} (k : String) (rs : List (Int × Req σ α)) (as : List (Ans σ α)) : List (Ans σ α) :=
  ((rs.zip as).filter fun p => decide (concerns p.1.2 = some k)).map (·.2)

/-- No id of a client's query is used for two data sets. -/
def OwnIds {σ α : Type} (rs : List (Int × Req σ α)) : Prop :=
  ∀ t t' u u' c c' f f', (t, Req.search u c f) ∈ rs → (t', Req.search u' c' f') ∈ rs → c.uuid ≠ "" → c.uuid = c'.uuid →
    c.dataName = c'.dataName

end Ref
open Iso Ref

/-- C167, full statement: the answers a node gives on one data set are those it would give if it had no other.  FALSE of the code. -/
def C167_alone_statement : Prop :=
  ∀ (σ α : Type) (X : DS.XEnv) (n n' n'' : Node) (rs : List (Int × Req σ α)) (as as' : List (Ans σ α)) (k : String),
    X.Ok → n.dataset.Nodup → n.queries.Nodup → run X rs n = .ok (n', as) → run X (alone k rs) n = .ok (n'', as') →
    answersOf k rs as = answersOf k (alone k rs) as'

namespace Iso
variable {σ α β : Type}

/-- Both crash, both fail in the same way, or both give the same answer and agree on `k` afterwards. -/
def Same (k : String) : Res (DS.DL × β) → Res (DS.DL × β) → Prop
  | .ok (m, a), .ok (m', a') => a = a' ∧ m.get? k = m'.get? k ∧ m.Nodup ∧ m'.Nodup
  | .err e, .err e' => e = e'
  | .panic, .panic => True
  | _, _ => False

/-- Whoever names another data set leaves `k` alone. -/
def Keeps (k : String) (m : DS.DL) : Res (DS.DL × β) → Prop
  | .ok (m', _) => m'.get? k = m.get? k ∧ (m.Nodup → m'.Nodup)
  | _ => True

theorem same_bind {γ : Type} {k : String} {x y : Res (DS.DL × β)} {f g : DS.DL × β → Res (DS.DL × γ)} (h : Same k x y)
    (hf : ∀ m m' a, m.get? k = m'.get? k → m.Nodup → m'.Nodup → Same k (f (m, a)) (g (m', a))) : Same k (x.bind f) (y.bind g) := by
  cases x with
  | ok p =>
    cases y with
    | ok q =>
      obtain ⟨h1, h2, h3, h4⟩ := h
      obtain ⟨m, a⟩ := p
      obtain ⟨m', a'⟩ := q
      simp only at h1
      subst h1
      exact hf m m' a h2 h3 h4
    | err _ => exact h.elim
    | panic => exact h.elim
  | err _ =>
    cases y with
    | ok _ => exact h.elim
    | err _ => exact h
    | panic => exact h.elim
  | panic =>
    cases y with
    | ok _ => exact h.elim
    | err _ => exact h.elim
    | panic => trivial

theorem keeps_bind {γ : Type} {k : String} {m : DS.DL} {x : Res (DS.DL × β)} {f : DS.DL × β → Res (DS.DL × γ)} (h : Keeps k m x)
    (hf : ∀ m' a, x = .ok (m', a) → Keeps k m' (f (m', a))) : Keeps k m (x.bind f) := by
  cases x with
  | ok p =>
    obtain ⟨m', a⟩ := p
    have h2 := hf m' a rfl
    simp only [Res.bind_ok]
    cases hx : f (m', a) with
    | ok q =>
      rw [hx] at h2
      exact ⟨h2.1.trans h.1, fun hn => h2.2 (h.2 hn)⟩
    | err _ => trivial
    | panic => trivial
  | err _ => trivial
  | panic => trivial

theorem same_set {k : String} {m m' : DS.DL} {s : DS.Slot} {a : β} (h : m.Nodup) (h' : m'.Nodup) :
    Same k (.ok (m.set k s, a)) (.ok (m'.set k s, a)) := by
  refine ⟨rfl, ?_, AMap.nodup_set h _ _, AMap.nodup_set h' _ _⟩
  rw [AMap.get?_set_self, AMap.get?_set_self]

theorem keeps_set {k j : String} {m : DS.DL} {s : DS.Slot} {a : β} (hk : j ≠ k) : Keeps k m (.ok (m.set j s, a)) :=
  ⟨AMap.get?_set_ne m s hk, fun h => AMap.nodup_set h _ _⟩

/-! ### `createIfNotExists`, `Get` -/

/-- `createIfNotExists` with a dummy second component. -/
def createU (now : Int) (m : DS.DL) (c : DataConfig) : Res (DS.DL × Unit) := (DS.createIfNotExists now m c).bind fun m => .ok (m, ())

theorem create_bind {γ : Type} (now : Int) (m : DS.DL) (c : DataConfig) (f : DS.DL → Res γ) :
    (DS.createIfNotExists now m c).bind f = (createU now m c).bind fun p => f p.1 := by
  unfold createU
  cases DS.createIfNotExists now m c <;> rfl

theorem same_create {k : String} {now : Int} {m m' : DS.DL} {c : DataConfig} (hc : c.name = k) (h : m.get? k = m'.get? k)
    (h1 : m.Nodup) (h2 : m'.Nodup) : Same k (createU now m c) (createU now m' c) := by
  subst hc
  unfold createU DS.createIfNotExists
  rw [← DS.lookup_congr h]
  cases DS.lookup now m c.name with
  | none => exact same_set h1 h2
  | some s =>
    simp only
    cases s.data.config with
    | none => trivial
    | some c0 =>
      simp only [Res.ofOption_some, Res.bind_ok]
      split
      · exact same_set h1 h2
      · exact ⟨rfl, h, h1, h2⟩

theorem keeps_create {k : String} {now : Int} {m : DS.DL} {c : DataConfig} (hc : c.name ≠ k) : Keeps k m (createU now m c) := by
  unfold createU DS.createIfNotExists
  cases DS.lookup now m c.name with
  | none => exact keeps_set hc
  | some s =>
    simp only
    cases s.data.config with
    | none => trivial
    | some c0 =>
      simp only [Res.ofOption_some, Res.bind_ok]
      split
      · exact keeps_set hc
      · exact ⟨rfl, id⟩

theorem same_touch {X : DS.XEnv} {k : String} {now : Int} {m m' : DS.DL} {s : DS.Slot} (h1 : m.Nodup) (h2 : m'.Nodup) :
    Same k (DS.touch X now m k s) (DS.touch X now m' k s) := by
  unfold DS.touch
  cases s.data.config with
  | none => trivial
  | some c => exact same_set h1 h2

theorem keeps_touch {X : DS.XEnv} {k j : String} {now : Int} {m : DS.DL} {s : DS.Slot} (hj : j ≠ k) :
    Keeps k m (DS.touch X now m j s) := by
  unfold DS.touch
  cases s.data.config with
  | none => trivial
  | some c => exact keeps_set hj

theorem same_get {X : DS.XEnv} {k : String} {now : Int} {m m' : DS.DL} (h : m.get? k = m'.get? k) (h1 : m.Nodup) (h2 : m'.Nodup) :
    Same k (DS.get X now m k) (DS.get X now m' k) := by
  unfold DS.get
  rw [← DS.lookup_congr h]
  cases DS.lookup now m k with
  | some s => exact same_touch h1 h2
  | none =>
    simp only
    rw [create_bind, create_bind]
    refine same_bind (same_create rfl h h1 h2) ?_
    intro m m' _ h h1 h2
    rw [← DS.lookup_congr h]
    cases DS.lookup now m k with
    | some s => exact same_touch h1 h2
    | none => exact rfl

theorem keeps_get {X : DS.XEnv} {k j : String} {now : Int} {m : DS.DL} (hj : j ≠ k) : Keeps k m (DS.get X now m j) := by
  unfold DS.get
  cases DS.lookup now m j with
  | some s => exact keeps_touch hj
  | none =>
    simp only
    rw [create_bind]
    refine keeps_bind (keeps_create hj) ?_
    intro m _ _
    simp only
    cases DS.lookup now m j with
    | some s => exact keeps_touch hj
    | none => trivial

/-! ### The background activity -/

theorem get?_janitor {now : Int} {m : DS.DL} (h : m.Nodup) (k : String) : (DS.janitor now m).get? k = (m.get? k).filter (DS.live now) := by
  have hn : (DS.janitor now m).Nodup := h.sublist (List.filter_sublist.map _)
  have e : ∀ s, (DS.janitor now m).get? k = some s ↔ (m.get? k).filter (DS.live now) = some s := by
    intro s
    rw [← AMap.mem_iff_get? hn, Option.filter_eq_some_iff, ← AMap.mem_iff_get? h]
    unfold DS.janitor
    rw [List.mem_filter]
  exact Option.ext e

theorem nodup_janitor {now : Int} {m : DS.DL} (h : m.Nodup) : (DS.janitor now m).Nodup := h.sublist (List.filter_sublist.map _)

theorem get?_forget {now : Int} {m : AMap String (Option Int)} (h : m.Nodup) (k : String) :
    AMap.get? (m.filter fun p => alive now p.2) k = (m.get? k).filter (alive now) := by
  have hn : AMap.Nodup (m.filter fun p => alive now p.2) := h.sublist (List.filter_sublist.map _)
  have e : ∀ s, AMap.get? (m.filter fun p => alive now p.2) k = some s ↔ (m.get? k).filter (alive now) = some s := by
    intro s
    rw [← AMap.mem_iff_get? hn, Option.filter_eq_some_iff, ← AMap.mem_iff_get? h]
    rw [List.mem_filter]
  exact Option.ext e

/-- Which of the names are inactive, for one name. -/
theorem inactive_filter {now : Int} {info : String → SourceId → Option DataInfo} {so : String → List SourceId} {m m' : DS.DL}
    {k : String} (h : m.get? k = m'.get? k) : ∀ {ks r : List String}, DS.inactive now info so m ks = .ok r →
    DS.inactive now info so m' (ks.filter (· = k)) = .ok (r.filter (· = k))
  | [], r, hr => by
    unfold DS.inactive at hr
    simp only [Res.ok.injEq] at hr
    subst hr
    simp [DS.inactive]
  | j :: ks, r, hr => by
    unfold DS.inactive at hr
    by_cases hj : j = k
    · subst hj
      rw [List.filter_cons_of_pos (by simp)]
      unfold DS.inactive
      rw [← DS.lookup_congr h]
      cases hl : DS.lookup now m j with
      | none =>
        rw [hl] at hr
        exact inactive_filter h hr
      | some s =>
        rw [hl] at hr
        simp only at hr ⊢
        cases ha : DS.checkIfActive (info j) (so j) s.data with
        | err _ => simp [ha] at hr
        | panic => simp [ha] at hr
        | ok a =>
          rw [ha] at hr
          simp only [Res.bind_ok] at hr ⊢
          cases hb : DS.inactive now info so m ks with
          | err _ => simp [hb] at hr
          | panic => simp [hb] at hr
          | ok r' =>
            rw [hb] at hr
            simp only [Res.bind_ok, Res.ok.injEq] at hr
            rw [inactive_filter h hb]
            simp only [Res.bind_ok, Res.ok.injEq]
            rw [← hr]
            cases a <;> simp
    · rw [List.filter_cons_of_neg (by simpa using hj)]
      cases hl : DS.lookup now m j with
      | none =>
        rw [hl] at hr
        exact inactive_filter h hr
      | some s =>
        rw [hl] at hr
        simp only at hr
        cases ha : DS.checkIfActive (info j) (so j) s.data with
        | err _ => simp [ha] at hr
        | panic => simp [ha] at hr
        | ok a =>
          rw [ha] at hr
          simp only [Res.bind_ok] at hr
          cases hb : DS.inactive now info so m ks with
          | err _ => simp [hb] at hr
          | panic => simp [hb] at hr
          | ok r' =>
            rw [hb] at hr
            simp only [Res.bind_ok, Res.ok.injEq] at hr
            rw [inactive_filter h hb, ← hr]
            cases a <;> simp [hj]

theorem inactive_no_err {now : Int} {info : String → SourceId → Option DataInfo} {so : String → List SourceId} {m : DS.DL} {e : Err} :
    ∀ (ks : List String), DS.inactive now info so m ks ≠ .err e
  | [] => by simp [DS.inactive]
  | k :: ks => by
    have ha : ∀ (i : SourceId → Option DataInfo) (l : List SourceId) (e : Err), DS.activeSources i l ≠ .err e := by
      intro i l e
      induction l with
      | nil => simp [DS.activeSources]
      | cons x l ih =>
        unfold DS.activeSources
        cases i x with
        | none => simp
        | some d => simp only; split <;> simp [ih]
    unfold DS.inactive
    cases DS.lookup now m k with
    | none => exact inactive_no_err ks
    | some s =>
      simp only
      cases hc : DS.checkIfActive (info k) (so k) s.data with
      | panic => simp
      | err e' =>
        unfold DS.checkIfActive at hc
        split at hc
        · cases hc
        · exact (ha _ _ _ hc).elim
      | ok a =>
        simp only [Res.bind_ok]
        cases hi : DS.inactive now info so m ks with
        | ok _ => simp
        | panic => simp
        | err e' => 
          intro h
          simp only [Res.bind_err, Res.err.injEq] at h
          subst h
          exact inactive_no_err ks hi

theorem get_no_err {X : DS.XEnv} {now : Int} {m : DS.DL} {k : String} {e : Err} : DS.get X now m k ≠ .err e := by
  have ht : ∀ (m : DS.DL) s, DS.touch X now m k s ≠ .err e := by
    intro m s
    unfold DS.touch
    cases s.data.config <;> simp
  cases hl : DS.lookup now m k with
  | none =>
    rw [DS.get_new hl]
    simp
  | some s =>
    unfold DS.get
    rw [hl]
    exact ht m s

theorem walk_no_err {X : DS.XEnv} {now : Int} {e : Err} : ∀ (ks : List String) (m : DS.DL), DS.walk X now ks m ≠ .err e
  | [], m => by simp [DS.walk]
  | k :: ks, m => by
    unfold DS.walk
    cases hg : DS.get X now m k with
    | err e' => exact (get_no_err hg).elim
    | panic => simp
    | ok p =>
      obtain ⟨m1, d⟩ := p
      simp only [Res.bind_ok]
      cases d.config with
      | none => simp
      | some c =>
        simp only [Res.ofOption_some, Res.bind_ok]
        cases hw : DS.walk X now ks m1 with
        | ok _ => simp
        | panic => simp
        | err e' =>
          intro h
          simp only [Res.bind_err, Res.err.injEq] at h
          subst h
          exact walk_no_err ks m1 hw

theorem nodup_eraseAll : ∀ (r : List String) {m : DS.DL}, m.Nodup → (r.foldl (fun m k => m.erase k) m).Nodup
  | [], _, h => h
  | k :: r, _, h => nodup_eraseAll r (AMap.nodup_erase h k)

theorem same_reload {now : Int} {info : String → SourceId → Option DataInfo} {so : String → List SourceId} {m m' m1 : DS.DL}
    {k : String} {ks : List String} (h : m.get? k = m'.get? k) (h1 : m.Nodup) (h2 : m'.Nodup)
    (hr : DS.reloadRuns now info so ks m = .ok m1) :
    ∃ m2, DS.reloadRuns now info so (ks.filter (· = k)) m' = .ok m2 ∧ m1.get? k = m2.get? k ∧ m1.Nodup ∧ m2.Nodup := by
  unfold DS.reloadRuns at hr ⊢
  cases hi : DS.inactive now info so m ks with
  | err _ => simp [hi] at hr
  | panic => simp [hi] at hr
  | ok r =>
    rw [hi] at hr
    simp only [Res.bind_ok, Res.ok.injEq] at hr
    rw [inactive_filter h hi]
    subst hr
    refine ⟨_, rfl, ?_, nodup_eraseAll _ h1, nodup_eraseAll _ h2⟩
    rw [DS.get?_eraseAll, DS.get?_eraseAll, h]
    simp

theorem same_walk {X : DS.XEnv} {now : Int} {k : String} : ∀ {ks : List String} {m m' m1 : DS.DL} {cs : List DataConfig},
    m.get? k = m'.get? k → m.Nodup → m'.Nodup → DS.walk X now ks m = .ok (m1, cs) →
    ∃ m2 cs', DS.walk X now (ks.filter (· = k)) m' = .ok (m2, cs') ∧ m1.get? k = m2.get? k ∧ m1.Nodup ∧ m2.Nodup
  | [], m, m', m1, cs, h, h1, h2, hw => by
    unfold DS.walk at hw
    simp only [Res.ok.injEq, Prod.mk.injEq] at hw
    obtain ⟨rfl, rfl⟩ := hw
    exact ⟨m', [], by simp [DS.walk], h, h1, h2⟩
  | j :: ks, m, m', m1, cs, h, h1, h2, hw => by
    unfold DS.walk at hw
    cases hg : DS.get X now m j with
    | err _ => simp [hg] at hw
    | panic => simp [hg] at hw
    | ok p =>
      obtain ⟨m3, d⟩ := p
      rw [hg] at hw
      simp only [Res.bind_ok] at hw
      cases hd : d.config with
      | none => simp [hd] at hw
      | some c =>
        rw [hd] at hw
        simp only [Res.ofOption_some, Res.bind_ok] at hw
        cases hx : DS.walk X now ks m3 with
        | err _ => simp [hx] at hw
        | panic => simp [hx] at hw
        | ok q =>
          obtain ⟨m4, cs4⟩ := q
          rw [hx] at hw
          simp only [Res.bind_ok, Res.ok.injEq, Prod.mk.injEq] at hw
          obtain ⟨rfl, _⟩ := hw
          by_cases hj : j = k
          · subst hj
            rw [List.filter_cons_of_pos (by simp)]
            have hs := same_get (X := X) (now := now) h h1 h2
            rw [hg] at hs
            unfold DS.walk
            cases hg' : DS.get X now m' j with
            | err _ => rw [hg'] at hs; exact hs.elim
            | panic => rw [hg'] at hs; exact hs.elim
            | ok p' =>
              obtain ⟨m5, d'⟩ := p'
              rw [hg'] at hs
              obtain ⟨e1, e2, e3, e4⟩ := hs
              subst e1
              obtain ⟨m6, cs6, w1, w2⟩ := same_walk e2 e3 e4 hx
              exact ⟨m6, c :: cs6, by simp [hd, w1], w2⟩
          · rw [List.filter_cons_of_neg (by simpa using hj)]
            have hk := keeps_get (X := X) (now := now) (m := m) hj
            rw [hg] at hk
            exact same_walk (hk.1.trans h) (hk.2 h1) h2 hx

/-! ### Requests -/

theorem same_put {k : String} {m m' : DS.DL} {d : Data} {a : β} (h : m.get? k = m'.get? k) (h1 : m.Nodup) (h2 : m'.Nodup) :
    Same k (match m.get? k with
      | none => .panic
      | some s => .ok (m.set k { s with data := d }, a))
      (match m'.get? k with
      | none => .panic
      | some s => .ok (m'.set k { s with data := d }, a)) := by
  rw [← h]
  cases m.get? k with
  | none => trivial
  | some s => exact same_set h1 h2

theorem keeps_put {k j : String} {m : DS.DL} {d : Data} {a : β} (hj : j ≠ k) :
    Keeps k m (match m.get? j with
      | none => .panic
      | some s => .ok (m.set j { s with data := d }, a)) := by
  cases m.get? j with
  | none => trivial
  | some s => exact keeps_set hj

theorem same_act {X : DS.XEnv} {k : String} {now : Int} {drain : Bool} {m m' : DS.DL} (h : m.get? k = m'.get? k) (h1 : m.Nodup)
    (h2 : m'.Nodup) (r : Req σ α) (hr : concerns r = some k) : Same k (act X now drain m r) (act X now drain m' r) := by
  cases r with
  | insert nowS order call w name datum config =>
    simp only [concerns, Option.some.injEq] at hr
    subst hr
    simp only [act]
    unfold DS.insert
    cases drain
    case true => exact ⟨rfl, h, h1, h2⟩
    case false =>
      simp only [Bool.false_eq_true, if_false]
      refine same_bind (β := σ × Option Err) (same_bind (same_get h h1 h2) ?_) (fun m m' a h h1 h2 => by exact ⟨rfl, h, h1, h2⟩)
      intro m m' d h h1 h2
      simp only
      cases Data.insert nowS order call d w datum config with
      | err _ => exact rfl
      | panic => trivial
      | ok out => exact same_put (a := (out.world, out.err)) h h1 h2
  | info name =>
    simp only [concerns, Option.some.injEq] at hr
    subst hr
    simp only [act]
    unfold DS.getDataInfo
    refine same_bind (same_bind (same_get h h1 h2) ?_) (fun m m' a h h1 h2 => by exact ⟨rfl, h, h1, h2⟩)
    intro m m' d h h1 h2
    simp only
    cases d.getDataInfo with
    | err _ => exact rfl
    | panic => trivial
    | ok out => exact ⟨rfl, h, h1, h2⟩
  | create c =>
    simp only [concerns, Option.some.injEq] at hr
    subst hr
    simp only [act]
    unfold DS.getOrCreate
    rw [create_bind, create_bind]
    refine same_bind (same_bind (f := fun p : DS.DL × Unit => DS.get X now p.1 c.name)
      (g := fun p : DS.DL × Unit => DS.get X now p.1 c.name) (same_create rfl h h1 h2) (fun m m' _ h h1 h2 => same_get h h1 h2)) ?_
    intro m m' d h h1 h2
    simp only
    cases d.getDataInfo with
    | err _ => exact rfl
    | panic => trivial
    | ok out => exact ⟨rfl, h, h1, h2⟩
  | delete name =>
    simp only [concerns, Option.some.injEq] at hr
    subst hr
    simp only [act]
    unfold DS.delete
    rw [← DS.lookup_congr h]
    cases DS.lookup now m name with
    | none => exact rfl
    | some s =>
      refine ⟨rfl, ?_, AMap.nodup_erase h1 _, AMap.nodup_erase h2 _⟩
      rw [AMap.get?_erase_self, AMap.get?_erase_self]
  | search fresh c f =>
    simp only [concerns, Option.some.injEq] at hr
    subst hr
    simp only [act]
    unfold DS.search DS.getNoCreate
    rw [← DS.lookup_congr h]
    cases DS.lookup now m c.dataName with
    | none => exact rfl
    | some s =>
      simp only [Res.bind_ok]
      cases f c s.data with
      | err _ => exact rfl
      | panic => trivial
      | ok p =>
        simp only [Res.bind_ok]
        exact same_bind (same_put h h1 h2) (fun m m' a h h1 h2 => by exact ⟨rfl, h, h1, h2⟩)
  | stream name f =>
    simp only [concerns, Option.some.injEq] at hr
    subst hr
    simp only [act]
    unfold stream
    refine same_bind (same_bind (same_get h h1 h2) ?_) (fun m m' a h h1 h2 => by exact ⟨rfl, h, h1, h2⟩)
    intro m m' d h h1 h2
    simp only
    cases f d with
    | err _ => exact rfl
    | panic => trivial
    | ok p => exact same_put h h1 h2
  | source id c =>
    simp only [concerns, Option.some.injEq] at hr
    subst hr
    simp only [act]
    unfold syncData DS.getOrCreate
    rw [create_bind, create_bind]
    have hs := same_bind (f := fun p : DS.DL × Unit => DS.get X now p.1 c.name)
      (g := fun p : DS.DL × Unit => DS.get X now p.1 c.name) (same_create (now := now) (c := c) rfl h h1 h2)
      (fun m m' (_ : Unit) h h1 h2 => same_get (X := X) (now := now) h h1 h2)
    revert hs
    generalize ((createU now m c).bind fun p => DS.get X now p.1 c.name) = x
    generalize ((createU now m' c).bind fun p => DS.get X now p.1 c.name) = y
    intro hs
    cases x with
    | ok p =>
      cases y with
      | ok q =>
        obtain ⟨_, h, h1, h2⟩ := hs
        simp only
        rw [← h]
        cases p.1.get? c.name with
        | none => trivial
        | some s => exact same_set h1 h2
      | err _ => exact hs.elim
      | panic => exact hs.elim
    | err _ =>
      cases y with
      | ok _ => exact hs.elim
      | err _ => exact ⟨rfl, h, h1, h2⟩
      | panic => exact hs.elim
    | panic =>
      cases y with
      | ok _ => exact hs.elim
      | err _ => exact hs.elim
      | panic => trivial
  | janitor => simp [concerns] at hr
  | forget => simp [concerns] at hr
  | reload _ _ _ => simp [concerns] at hr
  | walk _ => simp [concerns] at hr

theorem keeps_act {X : DS.XEnv} {k j : String} {now : Int} {drain : Bool} {m : DS.DL} (r : Req σ α) (hr : concerns r = some j)
    (hj : j ≠ k) : Keeps k m (act X now drain m r) := by
  cases r with
  | insert nowS order call w name datum config =>
    simp only [concerns, Option.some.injEq] at hr
    subst hr
    simp only [act]
    unfold DS.insert
    cases drain
    case true => exact ⟨rfl, id⟩
    case false =>
      simp only [Bool.false_eq_true, if_false]
      refine keeps_bind (β := σ × Option Err) (keeps_bind (keeps_get hj) ?_) (fun m a _ => by exact ⟨rfl, id⟩)
      intro m d _
      simp only
      cases Data.insert nowS order call d w datum config with
      | err _ => trivial
      | panic => trivial
      | ok out => exact keeps_put (a := (out.world, out.err)) hj
  | info name =>
    simp only [concerns, Option.some.injEq] at hr
    subst hr
    simp only [act]
    unfold DS.getDataInfo
    refine keeps_bind (keeps_bind (keeps_get hj) ?_) (fun m a _ => by exact ⟨rfl, id⟩)
    intro m d _
    simp only
    cases d.getDataInfo with
    | err _ => trivial
    | panic => trivial
    | ok out => exact ⟨rfl, id⟩
  | create c =>
    simp only [concerns, Option.some.injEq] at hr
    subst hr
    simp only [act]
    unfold DS.getOrCreate
    rw [create_bind]
    refine keeps_bind (keeps_bind (f := fun p : DS.DL × Unit => DS.get X now p.1 c.name) (keeps_create hj)
      (fun m _ _ => keeps_get hj)) ?_
    intro m d _
    simp only
    cases d.getDataInfo with
    | err _ => trivial
    | panic => trivial
    | ok out => exact ⟨rfl, id⟩
  | delete name =>
    simp only [concerns, Option.some.injEq] at hr
    subst hr
    simp only [act]
    unfold DS.delete
    cases DS.lookup now m name with
    | none => trivial
    | some s => exact ⟨AMap.get?_erase_ne m hj, fun h => AMap.nodup_erase h _⟩
  | search fresh c f =>
    simp only [concerns, Option.some.injEq] at hr
    subst hr
    simp only [act]
    unfold DS.search DS.getNoCreate
    cases DS.lookup now m c.dataName with
    | none => trivial
    | some s =>
      simp only [Res.bind_ok]
      cases f c s.data with
      | err _ => trivial
      | panic => trivial
      | ok p =>
        simp only [Res.bind_ok]
        exact keeps_bind (keeps_put hj) (fun m a _ => by exact ⟨rfl, id⟩)
  | stream name f =>
    simp only [concerns, Option.some.injEq] at hr
    subst hr
    simp only [act]
    unfold stream
    refine keeps_bind (keeps_bind (keeps_get hj) ?_) (fun m a _ => by exact ⟨rfl, id⟩)
    intro m d _
    simp only
    cases f d with
    | err _ => trivial
    | panic => trivial
    | ok p => exact keeps_put hj
  | source id c =>
    simp only [concerns, Option.some.injEq] at hr
    subst hr
    simp only [act]
    unfold syncData DS.getOrCreate
    rw [create_bind]
    have hs := keeps_bind (f := fun p : DS.DL × Unit => DS.get X now p.1 c.name) (keeps_create (now := now) (m := m) hj)
      (fun m (_ : Unit) _ => keeps_get (X := X) (now := now) (m := m) hj)
    revert hs
    generalize ((createU now m c).bind fun p => DS.get X now p.1 c.name) = x
    intro hs
    cases x with
    | ok p =>
      obtain ⟨h1, h2⟩ := hs
      simp only
      cases p.1.get? c.name with
      | none => trivial
      | some s => exact ⟨(AMap.get?_set_ne _ _ hj).trans h1, fun h => AMap.nodup_set (h2 h) _ _⟩
    | err _ => exact ⟨rfl, fun h => h⟩
    | panic => trivial
  | janitor => simp [concerns] at hr
  | forget => simp [concerns] at hr
  | reload _ _ _ => simp [concerns] at hr
  | walk _ => simp [concerns] at hr

/-! ### Runs -/

/-- The two nodes agree on the data set `k` and on these query ids. -/
structure Agree (ids : String → Prop) (k : String) (n n' : Node) : Prop where
  data : n.dataset.get? k = n'.dataset.get? k
  drain : n.drain = n'.drain
  nodup : n.dataset.Nodup
  nodup' : n'.dataset.Nodup
  qnodup : n.queries.Nodup
  qnodup' : n'.queries.Nodup
  queries : ∀ u, ids u → n.queries.get? u = n'.queries.get? u

theorem agree_give {ids : String → Prop} {k : String} {n n' : Node} (h : Agree ids k n n') {x y : Res (DS.DL × Ans σ α)}
    (hs : Same k x y) {n1 : Node} {a : Ans σ α} (hg : give n x = .ok (n1, a)) :
    ∃ n1', give n' y = .ok (n1', a) ∧ Agree ids k n1 n1' := by
  cases x with
  | ok p =>
    cases y with
    | ok q =>
      obtain ⟨m, a1⟩ := p
      obtain ⟨m', a2⟩ := q
      obtain ⟨e1, e2, e3, e4⟩ := hs
      subst e1
      simp only [give, Res.ok.injEq, Prod.mk.injEq] at hg
      obtain ⟨rfl, rfl⟩ := hg
      exact ⟨_, rfl, e2, h.drain, e3, e4, h.qnodup, h.qnodup', h.queries⟩
    | err _ => exact hs.elim
    | panic => exact hs.elim
  | err e =>
    cases y with
    | ok _ => exact hs.elim
    | err e' =>
      simp only [give, Res.ok.injEq, Prod.mk.injEq] at hg
      obtain ⟨rfl, rfl⟩ := hg
      have e1 : e = e' := hs
      subst e1
      exact ⟨_, rfl, h⟩
    | panic => exact hs.elim
  | panic => simp [give] at hg

theorem agree_keep {ids : String → Prop} {k : String} {n n' : Node} (h : Agree ids k n n') {x : Res (DS.DL × Ans σ α)}
    (hs : Keeps k n.dataset x) {n1 : Node} {a : Ans σ α} (hg : give n x = .ok (n1, a)) : Agree ids k n1 n' := by
  cases x with
  | ok p =>
    obtain ⟨m, a1⟩ := p
    obtain ⟨e1, e2⟩ := hs
    simp only [give, Res.ok.injEq, Prod.mk.injEq] at hg
    obtain ⟨rfl, rfl⟩ := hg
    exact ⟨e1.trans h.data, h.drain, e2 h.nodup, h.nodup', h.qnodup, h.qnodup', h.queries⟩
  | err e =>
    simp only [give, Res.ok.injEq, Prod.mk.injEq] at hg
    obtain ⟨rfl, rfl⟩ := hg
    exact h
  | panic => simp [give] at hg

theorem entry_same {ids : String → Prop} {k : String} {n n' : Node} (h : Agree ids k n n') (now : Int) (fresh u : String)
    (hu : u = "" ∨ ids u) : (queryEntry now fresh n u = none ∧ queryEntry now fresh n' u = none) ∨
      ∃ n1 n1' v, queryEntry now fresh n u = some (n1, v) ∧ queryEntry now fresh n' u = some (n1', v) ∧ Agree ids k n1 n1' := by
  unfold queryEntry
  by_cases he : u = ""
  · rw [if_pos he, if_pos he]
    exact Or.inr ⟨n, n', fresh, rfl, rfl, h⟩
  · rw [if_neg he, if_neg he, ← h.queries u (hu.resolve_left he)]
    have hA : ∀ v, Agree ids k { n with queries := n.queries.set u v } { n' with queries := n'.queries.set u v } := by
      intro v
      refine ⟨h.data, h.drain, h.nodup, h.nodup', AMap.nodup_set h.qnodup _ _, AMap.nodup_set h.qnodup' _ _, ?_⟩
      intro w hw
      simp only
      rw [AMap.get?_set, AMap.get?_set, h.queries w hw]
    cases n.queries.get? u with
    | none => exact Or.inr ⟨_, _, u, rfl, rfl, hA _⟩
    | some e =>
      simp only
      split
      · exact Or.inl ⟨rfl, rfl⟩
      · exact Or.inr ⟨_, _, u, rfl, rfl, hA _⟩

theorem entry_other {ids : String → Prop} {k : String} {n n' n1 : Node} (h : Agree ids k n n') {now : Int} {fresh u v : String}
    (hu : ¬ ids u) (he : queryEntry now fresh n u = some (n1, v)) : Agree ids k n1 n' ∧ n1.dataset = n.dataset := by
  unfold queryEntry at he
  have hA : ∀ v, Agree ids k { n with queries := n.queries.set u v } n' := by
    intro v
    refine ⟨h.data, h.drain, h.nodup, h.nodup', AMap.nodup_set h.qnodup _ _, h.qnodup', ?_⟩
    intro w hw
    simp only
    rw [AMap.get?_set_ne _ _ (by rintro rfl; exact hu hw), h.queries w hw]
  split at he
  · simp only [Option.some.injEq, Prod.mk.injEq] at he
    obtain ⟨rfl, _⟩ := he
    exact ⟨h, rfl⟩
  · split at he
    · split at he
      · cases he
      · simp only [Option.some.injEq, Prod.mk.injEq] at he
        obtain ⟨rfl, _⟩ := he
        exact ⟨hA _, rfl⟩
    · simp only [Option.some.injEq, Prod.mk.injEq] at he
      obtain ⟨rfl, _⟩ := he
      exact ⟨hA _, rfl⟩

theorem serve_own {X : DS.XEnv} {ids : String → Prop} {k : String} {n n' n1 : Node} {now : Int} {r : Req σ α} {a : Ans σ α}
    (h : Agree ids k n n') (hr : concerns r = some k) (hi : ∀ u c f, r = .search u c f → c.uuid = "" ∨ ids c.uuid)
    (hs : serve X now n r = .ok (n1, a)) : ∃ n1', serve X now n' r = .ok (n1', a) ∧ Agree ids k n1 n1' := by
  have hgen : ∀ x : Req σ α, x = r → (∀ u c f, x ≠ .search u c f) → x ≠ .forget →
      ∃ n1', serve X now n' r = .ok (n1', a) ∧ Agree ids k n1 n1' := by
    intro x hx h1 h2
    have e : ∀ n, serve X now n r = give n (act X now n.drain n.dataset r) := by
      intro n
      subst hx
      cases x <;> first | rfl | exact absurd rfl (h1 _ _ _) | exact absurd rfl h2
    rw [e] at hs ⊢
    rw [← h.drain]
    exact agree_give h (same_act h.data h.nodup h.nodup' r hr) hs
  cases r with
  | search fresh c f =>
    simp only [serve] at hs ⊢
    rcases entry_same h now fresh c.uuid (hi _ _ _ rfl) with ⟨e1, e2⟩ | ⟨m, m', v, e1, e2, e3⟩
    · rw [e1] at hs
      rw [e2]
      simp only [Res.ok.injEq, Prod.mk.injEq] at hs ⊢
      obtain ⟨rfl, rfl⟩ := hs
      exact ⟨n', ⟨rfl, rfl⟩, h⟩
    · rw [e1] at hs
      rw [e2]
      simp only at hs ⊢
      rw [← e3.drain]
      exact agree_give e3 (same_act e3.data e3.nodup e3.nodup' (.search fresh { c with uuid := v } f) hr) hs
  | forget => simp [concerns] at hr
  | insert => exact hgen _ rfl (by intros; simp) (by simp)
  | info => exact hgen _ rfl (by intros; simp) (by simp)
  | create => exact hgen _ rfl (by intros; simp) (by simp)
  | delete => exact hgen _ rfl (by intros; simp) (by simp)
  | stream => exact hgen _ rfl (by intros; simp) (by simp)
  | source => exact hgen _ rfl (by intros; simp) (by simp)
  | janitor => simp [concerns] at hr
  | reload => simp [concerns] at hr
  | walk => simp [concerns] at hr

theorem serve_other {X : DS.XEnv} {ids : String → Prop} {k j : String} {n n' n1 : Node} {now : Int} {r : Req σ α} {a : Ans σ α}
    (h : Agree ids k n n') (hr : concerns r = some j) (hj : j ≠ k) (hi : ∀ u c f, r = .search u c f → ¬ ids c.uuid)
    (hs : serve X now n r = .ok (n1, a)) : Agree ids k n1 n' := by
  have hgen : ∀ x : Req σ α, x = r → (∀ u c f, x ≠ .search u c f) → x ≠ .forget → Agree ids k n1 n' := by
    intro x hx h1 h2
    have e : ∀ n, serve X now n r = give n (act X now n.drain n.dataset r) := by
      intro n
      subst hx
      cases x <;> first | rfl | exact absurd rfl (h1 _ _ _) | exact absurd rfl h2
    rw [e] at hs
    exact agree_keep h (keeps_act r hr hj) hs
  cases r with
  | search fresh c f =>
    simp only [serve] at hs
    cases he : queryEntry now fresh n c.uuid with
    | none =>
      rw [he] at hs
      simp only [Res.ok.injEq, Prod.mk.injEq] at hs
      obtain ⟨rfl, rfl⟩ := hs
      exact h
    | some p =>
      obtain ⟨m, v⟩ := p
      rw [he] at hs
      simp only at hs
      obtain ⟨e1, e2⟩ := entry_other h (hi _ _ _ rfl) he
      exact agree_keep e1 (keeps_act (.search fresh { c with uuid := v } f) hr hj) hs
  | forget => simp [concerns] at hr
  | insert => exact hgen _ rfl (by intros; simp) (by simp)
  | info => exact hgen _ rfl (by intros; simp) (by simp)
  | create => exact hgen _ rfl (by intros; simp) (by simp)
  | delete => exact hgen _ rfl (by intros; simp) (by simp)
  | stream => exact hgen _ rfl (by intros; simp) (by simp)
  | source => exact hgen _ rfl (by intros; simp) (by simp)
  | janitor => simp [concerns] at hr
  | reload => simp [concerns] at hr
  | walk => simp [concerns] at hr

theorem serve_back {X : DS.XEnv} {ids : String → Prop} {k : String} {n n' n1 : Node} {now : Int} {r : Req σ α} {a : Ans σ α}
    (h : Agree ids k n n') (hr : concerns r = none) (hs : serve X now n r = .ok (n1, a)) :
    ∃ n1' a', serve X now n' (only k r) = .ok (n1', a') ∧ Agree ids k n1 n1' := by
  cases r with
  | janitor =>
    simp only [serve, act, give, Res.ok.injEq, Prod.mk.injEq] at hs
    obtain ⟨rfl, rfl⟩ := hs
    refine ⟨_, _, rfl, ?_, h.drain, nodup_janitor h.nodup, nodup_janitor h.nodup', h.qnodup, h.qnodup', h.queries⟩
    simp only
    rw [get?_janitor h.nodup, get?_janitor h.nodup', h.data]
  | forget =>
    simp only [serve, Res.ok.injEq, Prod.mk.injEq] at hs
    obtain ⟨rfl, rfl⟩ := hs
    refine ⟨_, _, rfl, h.data, h.drain, h.nodup, h.nodup', h.qnodup.sublist (List.filter_sublist.map _),
      h.qnodup'.sublist (List.filter_sublist.map _), ?_⟩
    intro u hu
    simp only
    rw [get?_forget h.qnodup, get?_forget h.qnodup', h.queries u hu]
  | reload info so ks =>
    simp only [serve, act, only] at hs ⊢
    cases hx : DS.reloadRuns now info so ks n.dataset with
    | err e =>
      unfold DS.reloadRuns at hx
      exact absurd hx (by
        cases hy : DS.inactive now info so n.dataset ks with
        | ok _ => simp
        | panic => simp
        | err e' => exact (inactive_no_err _ hy).elim)
    | panic => simp [hx, give] at hs
    | ok m1 =>
      rw [hx] at hs
      simp only [Res.bind_ok, give, Res.ok.injEq, Prod.mk.injEq] at hs
      obtain ⟨rfl, rfl⟩ := hs
      obtain ⟨m2, e1, e2, e3, e4⟩ := same_reload h.data h.nodup h.nodup' hx
      rw [e1]
      exact ⟨_, _, rfl, e2, h.drain, e3, e4, h.qnodup, h.qnodup', h.queries⟩
  | walk order =>
    simp only [serve, act, only] at hs ⊢
    cases hx : DS.walk X now order n.dataset with
    | err e => exact (walk_no_err _ _ hx).elim
    | panic => simp [hx, give] at hs
    | ok p =>
      obtain ⟨m1, cs⟩ := p
      rw [hx] at hs
      simp only [Res.bind_ok, give, Res.ok.injEq, Prod.mk.injEq] at hs
      obtain ⟨rfl, rfl⟩ := hs
      obtain ⟨m2, cs', e1, e2, e3, e4⟩ := same_walk h.data h.nodup h.nodup' hx
      rw [e1]
      exact ⟨_, _, rfl, e2, h.drain, e3, e4, h.qnodup, h.qnodup', h.queries⟩
  | insert => simp [concerns] at hr
  | info => simp [concerns] at hr
  | create => simp [concerns] at hr
  | delete => simp [concerns] at hr
  | stream => simp [concerns] at hr
  | source => simp [concerns] at hr
  | search => simp [concerns] at hr

theorem alone_cons_own {k : String} {now : Int} {r : Req σ α} {rs : List (Int × Req σ α)} (h : About k r = true) :
    alone k ((now, r) :: rs) = (now, only k r) :: alone k rs := by
  unfold alone
  rw [List.filter_cons_of_pos (by simpa using h)]
  rfl

theorem alone_cons_other {k : String} {now : Int} {r : Req σ α} {rs : List (Int × Req σ α)} (h : About k r = false) :
    alone k ((now, r) :: rs) = alone k rs := by
  unfold alone
  rw [List.filter_cons_of_neg (by simp [h])]

theorem answers_cons_own {k : String} {now : Int} {r : Req σ α} {rs : List (Int × Req σ α)} {a : Ans σ α} {as : List (Ans σ α)}
    (h : concerns r = some k) : answersOf k ((now, r) :: rs) (a :: as) = a :: answersOf k rs as := by
  unfold answersOf
  rw [List.zip_cons_cons, List.filter_cons_of_pos (by simpa using h)]
  rfl

theorem answers_cons_other {k : String} {now : Int} {r : Req σ α} {rs : List (Int × Req σ α)} {a : Ans σ α} {as : List (Ans σ α)}
    (h : concerns r ≠ some k) : answersOf k ((now, r) :: rs) (a :: as) = answersOf k rs as := by
  unfold answersOf
  rw [List.zip_cons_cons, List.filter_cons_of_neg (by simpa using h)]

theorem concerns_only {k : String} {r : Req σ α} : concerns (only k r) = concerns r := by cases r <;> rfl

theorem only_own {k : String} {r : Req σ α} (h : concerns r = some k) : only k r = r := by
  cases r <;> first | rfl | simp [concerns] at h

theorem run_alone {X : DS.XEnv} {ids : String → Prop} {k : String} : ∀ (rs : List (Int × Req σ α)) {n n' n1 : Node} {as : List (Ans σ α)},
    Agree ids k n n' → (∀ t u c f, (t, Req.search u c f) ∈ rs → c.dataName = k → c.uuid = "" ∨ ids c.uuid) →
    (∀ t u c f, (t, Req.search u c f) ∈ rs → c.dataName ≠ k → ¬ ids c.uuid) → run X rs n = .ok (n1, as) →
    ∃ n2 as', run X (alone k rs) n' = .ok (n2, as') ∧ answersOf k rs as = answersOf k (alone k rs) as' ∧ Agree ids k n1 n2
  | [], n, n', n1, as, h, _, _, hr => by
    simp only [run, Res.ok.injEq, Prod.mk.injEq] at hr
    obtain ⟨rfl, rfl⟩ := hr
    exact ⟨n', [], rfl, rfl, h⟩
  | (now, r) :: rs, n, n', n1, as, h, ho, hx, hr => by
    unfold run at hr
    cases hs : serve X now n r with
    | err _ => simp [hs] at hr
    | panic => simp [hs] at hr
    | ok p =>
      obtain ⟨m, a⟩ := p
      rw [hs] at hr
      simp only [Res.bind_ok] at hr
      cases hq : run X rs m with
      | err _ => simp [hq] at hr
      | panic => simp [hq] at hr
      | ok q =>
        obtain ⟨m1, as1⟩ := q
        rw [hq] at hr
        simp only [Res.bind_ok, Res.ok.injEq, Prod.mk.injEq] at hr
        obtain ⟨rfl, rfl⟩ := hr
        have ho' : ∀ t u c f, (t, Req.search u c f) ∈ rs → c.dataName = k → c.uuid = "" ∨ ids c.uuid :=
          fun t u c f hm => ho t u c f (List.mem_cons_of_mem _ hm)
        have hx' : ∀ t u c f, (t, Req.search u c f) ∈ rs → c.dataName ≠ k → ¬ ids c.uuid :=
          fun t u c f hm => hx t u c f (List.mem_cons_of_mem _ hm)
        cases hc : concerns r with
        | none =>
          obtain ⟨m', a', e1, e2⟩ := serve_back h hc hs
          obtain ⟨n2, as', e3, e4, e5⟩ := run_alone rs e2 ho' hx' hq
          rw [alone_cons_own (by simp [About, hc])]
          refine ⟨n2, a' :: as', ?_, ?_, e5⟩
          · simp [run, e1, e3]
          · rw [answers_cons_other (by simp [hc]), answers_cons_other (by simp [concerns_only, hc]), e4]
        | some j =>
          by_cases hj : j = k
          · subst hj
            obtain ⟨m', e1, e2⟩ := serve_own h hc (fun u c f e => by
              subst e
              exact ho now u c f (List.mem_cons_self ..) (by simpa [concerns] using hc)) hs
            obtain ⟨n2, as', e3, e4, e5⟩ := run_alone rs e2 ho' hx' hq
            rw [alone_cons_own (by simp [About, hc]), only_own hc]
            refine ⟨n2, a :: as', ?_, ?_, e5⟩
            · simp [run, e1, e3]
            · rw [answers_cons_own hc, answers_cons_own hc, e4]
          · have e2 := serve_other h hc hj (fun u c f e => by
              subst e
              simp only [concerns, Option.some.injEq] at hc
              exact hx now u c f (List.mem_cons_self ..) (by rw [hc]; exact hj)) hs
            obtain ⟨n2, as', e3, e4, e5⟩ := run_alone rs e2 ho' hx' hq
            rw [alone_cons_other (by simp [About, hc, hj])]
            refine ⟨n2, as', e3, ?_, e5⟩
            rw [answers_cons_other (by simp [hc, hj]), e4]

/-- Everything but the data sets and the ids of queries. -/
def rest (n : Node) : Node := { n with dataset := [], queries := [] }

theorem rest_give {n n' : Node} {x : Res (DS.DL × Ans σ α)} {a : Ans σ α} (h : give n x = .ok (n', a)) :
    rest n' = rest n ∧ (n'.dataset = n.dataset ∨ ∃ m b, x = .ok (m, b) ∧ n'.dataset = m) := by
  cases x with
  | ok p =>
    simp only [give, Res.ok.injEq, Prod.mk.injEq] at h
    obtain ⟨rfl, rfl⟩ := h
    exact ⟨rfl, Or.inr ⟨_, _, rfl, rfl⟩⟩
  | err e =>
    simp only [give, Res.ok.injEq, Prod.mk.injEq] at h
    obtain ⟨rfl, rfl⟩ := h
    exact ⟨rfl, Or.inl rfl⟩
  | panic => simp [give] at h

theorem rest_entry {now : Int} {fresh u v : String} {n n1 : Node} (h : queryEntry now fresh n u = some (n1, v)) :
    rest n1 = rest n ∧ n1.dataset = n.dataset := by
  unfold queryEntry at h
  split at h
  · simp only [Option.some.injEq, Prod.mk.injEq] at h
    obtain ⟨rfl, _⟩ := h
    exact ⟨rfl, rfl⟩
  · split at h
    · split at h
      · cases h
      · simp only [Option.some.injEq, Prod.mk.injEq] at h
        obtain ⟨rfl, _⟩ := h
        exact ⟨rfl, rfl⟩
    · simp only [Option.some.injEq, Prod.mk.injEq] at h
      obtain ⟨rfl, _⟩ := h
      exact ⟨rfl, rfl⟩

theorem keeps_give {k j : String} {X : DS.XEnv} {now : Int} {n n' : Node} {r : Req σ α} {a : Ans σ α} (hr : concerns r = some j)
    (hj : j ≠ k) (h : give n (act X now n.drain n.dataset r) = .ok (n', a)) : n'.dataset.get? k = n.dataset.get? k := by
  rcases (rest_give h).2 with e | ⟨m, b, e1, e2⟩
  · rw [e]
  · have := keeps_act (X := X) (now := now) (drain := n.drain) (m := n.dataset) r hr hj
    rw [e1] at this
    rw [e2]
    exact this.1

end Iso

/-- C166: a request, whether it succeeds or not, leaves every data set it does not name as it is, with its data, its configuration, its
sources and its expiry, and the rest of the node except for the list of query ids. -/
theorem C166_only_named {σ α : Type} (X : DS.XEnv) (now : Int) (n n' : Node) (r : Req σ α) (a : Ans σ α) (k j : String)
    (hr : concerns r = some k) (hj : j ≠ k) (h : serve X now n r = .ok (n', a)) :
    n'.dataset.get? j = n.dataset.get? j ∧ { n' with dataset := [], queries := [] } = { n with dataset := [], queries := [] } := by
  have hj' : k ≠ j := fun e => hj e.symm
  cases r with
  | search fresh c f =>
    simp only [serve] at h
    cases he : queryEntry now fresh n c.uuid with
    | none =>
      rw [he] at h
      simp only [Res.ok.injEq, Prod.mk.injEq] at h
      obtain ⟨rfl, rfl⟩ := h
      exact ⟨rfl, rfl⟩
    | some p =>
      obtain ⟨m, v⟩ := p
      rw [he] at h
      simp only at h
      obtain ⟨e1, e2⟩ := rest_entry he
      have e3 := keeps_give (r := .search fresh { c with uuid := v } f) hr hj' h
      exact ⟨by rw [e3, e2], (rest_give h).1.trans e1⟩
  | forget => simp [concerns] at hr
  | insert => exact ⟨keeps_give hr hj' h, (rest_give h).1⟩
  | info => exact ⟨keeps_give hr hj' h, (rest_give h).1⟩
  | create => exact ⟨keeps_give hr hj' h, (rest_give h).1⟩
  | delete => exact ⟨keeps_give hr hj' h, (rest_give h).1⟩
  | stream => exact ⟨keeps_give hr hj' h, (rest_give h).1⟩
  | source => exact ⟨keeps_give hr hj' h, (rest_give h).1⟩
  | janitor => simp [concerns] at hr
  | reload => simp [concerns] at hr
  | walk => simp [concerns] at hr

/-- C166, for any number of requests none of which names the data set. -/
theorem C166_run {σ α : Type} (X : DS.XEnv) (j : String) : ∀ (rs : List (Int × Req σ α)) (n n' : Node) (as : List (Ans σ α)),
    (∀ p ∈ rs, ∃ k, concerns p.2 = some k ∧ j ≠ k) → run X rs n = .ok (n', as) → n'.dataset.get? j = n.dataset.get? j
  | [], n, n', as, _, h => by
    simp only [run, Res.ok.injEq, Prod.mk.injEq] at h
    rw [h.1]
  | (now, r) :: rs, n, n', as, hr, h => by
    unfold run at h
    cases hs : serve X now n r with
    | err _ => simp [hs] at h
    | panic => simp [hs] at h
    | ok p =>
      obtain ⟨m, a⟩ := p
      rw [hs] at h
      simp only [Res.bind_ok] at h
      cases hq : run X rs m with
      | err _ => simp [hq] at h
      | panic => simp [hq] at h
      | ok q =>
        obtain ⟨m1, as1⟩ := q
        rw [hq] at h
        simp only [Res.bind_ok, Res.ok.injEq, Prod.mk.injEq] at h
        obtain ⟨rfl, rfl⟩ := h
        obtain ⟨k, h1, h2⟩ := hr _ (List.mem_cons_self ..)
        rw [C166_run X j rs m m1 as1 (fun p hp => hr p (List.mem_cons_of_mem _ hp)) hq, (C166_only_named X now n m r a k j h1 h2 hs).1]

/-- C167, partial: if no id of a client's query is used for two data sets, then without the requests for the others the node does not
crash either, the answers on the data set are the same, and the data set is the same in the end. -/
theorem C167_alone_partial {σ α : Type} (X : DS.XEnv) (n n' : Node) (rs : List (Int × Req σ α)) (as : List (Ans σ α)) (k : String)
    (hn : n.dataset.Nodup) (hq : n.queries.Nodup) (hi : OwnIds rs) (h : run X rs n = .ok (n', as)) :
    ∃ n'' as', run X (alone k rs) n = .ok (n'', as') ∧ answersOf k rs as = answersOf k (alone k rs) as' ∧
      n'.dataset.get? k = n''.dataset.get? k := by
  obtain ⟨n2, as', h1, h2, h3⟩ := run_alone (X := X) (k := k)
    (ids := fun u => u ≠ "" ∧ ∃ t v c f, (t, Req.search v c f) ∈ rs ∧ c.dataName = k ∧ c.uuid = u) rs
    ⟨rfl, rfl, hn, hn, hq, hq, fun _ _ => rfl⟩
    (fun t u c f hm hk => by
      by_cases he : c.uuid = ""
      · exact Or.inl he
      · exact Or.inr ⟨he, t, u, c, f, hm, hk, rfl⟩)
    (fun t u c f hm hk ⟨h0, t', v, c', f', hm', hk', hu⟩ => hk ((hi t t' u v c c' f f' hm hm' h0 hu.symm).trans hk')) h
  exact ⟨n2, as', h1, h2, h3.data⟩

namespace Iso

/-- A search for data of this name, with this id. -/
def exSearch (name uuid : String) : Req Unit Nat :=
  .search "r" { Search.defaultSearchConfig with dataName := name, uuid := uuid } fun _ dt => .ok (dt, dt.dbMap.length)

def exInsert (name : String) : Req Unit Nat :=
  .insert 0 [] (fun _ _ _ w => (w, none)) () name (some ⟨some ⟨[0x3F800000], [], 1, 0, 1, 0⟩, some ⟨1, [7]⟩⟩) none

/-- Two data sets, and two searches with the same id. -/
def exShared : List (Int × Req Unit Nat) := [(0, exInsert "a"), (1, exInsert "b"), (2, exSearch "a" "q"), (3, exSearch "b" "q")]

/-- Two data sets, and two searches with different ids; the janitor and a walk of the list. -/
def exOwn : List (Int × Req Unit Nat) :=
  [(0, exInsert "a"), (1, exInsert "b"), (2, exSearch "a" "p"), (3, .janitor), (3, .walk ["b", "a"]), (4, exSearch "b" "q")]

def exNode : Node := newNode 5678 ["h:1"] [] []

theorem exNode_nodup : exNode.dataset.Nodup ∧ exNode.queries.Nodup := ⟨AMap.nodup_nil, AMap.nodup_nil⟩

theorem run_answers {σ α : Type} [DecidableEq σ] [DecidableEq α] {X : DS.XEnv} {rs : List (Int × Req σ α)} {n : Node} {as : List (Ans σ α)}
    (h : (match run X rs n with
      | .ok p => decide (p.2 = as)
      | _ => false) = true) : ∃ n', run X rs n = .ok (n', as) := by
  cases hr : run X rs n with
  | ok p =>
    rw [hr] at h
    obtain ⟨n', as'⟩ := p
    have : as' = as := of_decide_eq_true h
    subst this
    exact ⟨n', rfl⟩
  | err _ => rw [hr] at h; cases h
  | panic => rw [hr] at h; cases h

end Iso

/-- C167, counterexample: the search of the data set `b` has the id of a search of `a`; the answer is empty.  Without `a` it is one
datum. -/
theorem C167_alone_fails : ¬ C167_alone_statement := by
  intro h
  obtain ⟨n', h1⟩ := run_answers (X := DS.toy 0) (rs := exShared) (n := exNode)
    (as := [.inserted () none, .inserted () none, .found 1, .nothing]) (by decide +kernel)
  obtain ⟨n'', h2⟩ := run_answers (X := DS.toy 0) (rs := alone "b" exShared) (n := exNode)
    (as := [.inserted () none, .found 1]) (by decide +kernel)
  have := h Unit Nat (DS.toy 0) exNode n' n'' exShared _ _ "b" (DS.toy_ok 0) exNode_nodup.1 exNode_nodup.2 h1 h2
  revert this
  decide +kernel

/-- C166: an insert into `a` of a node that has `b`. -/
theorem C166_example : ∃ n n' a, run (DS.toy 0) [(0, exInsert "b")] exNode = .ok (n, [.inserted () none]) ∧
    (n.dataset.get? "b").isSome = true ∧ serve (DS.toy 0) 1 n (exInsert "a") = .ok (n', a) ∧ (n'.dataset.get? "a").isSome = true ∧
    n'.dataset.get? "b" = n.dataset.get? "b" := by
  have h : (match run (DS.toy 0) [(0, exInsert "b")] exNode with
      | .ok (n, as) => decide (as = [.inserted () none]) && (n.dataset.get? "b").isSome &&
        (match serve (DS.toy 0) 1 n (exInsert "a") with
        | .ok (n', _) => (n'.dataset.get? "a").isSome
        | _ => false)
      | _ => false) = true := by decide +kernel
  cases hr : run (DS.toy 0) [(0, exInsert "b")] exNode with
  | err _ => rw [hr] at h; cases h
  | panic => rw [hr] at h; cases h
  | ok p =>
    obtain ⟨n, as⟩ := p
    rw [hr] at h
    simp only [Bool.and_eq_true] at h
    obtain ⟨⟨h1, h2⟩, h3⟩ := h
    have e := of_decide_eq_true h1
    subst e
    cases hs : serve (DS.toy 0) 1 n (exInsert "a") with
    | err _ => rw [hs] at h3; cases h3
    | panic => rw [hs] at h3; cases h3
    | ok q =>
      obtain ⟨n', a⟩ := q
      rw [hs] at h3
      exact ⟨n, n', a, rfl, h2, hs, h3, (C166_only_named _ 1 n n' (exInsert "a") a "a" "b" rfl (by decide) hs).1⟩

/-- C167: a history that meets the hypotheses, and its answers. -/
theorem C167_example : OwnIds exOwn ∧
    (∃ n', run (DS.toy 0) exOwn exNode = .ok (n', [.inserted () none, .inserted () none, .found 1, .done, .done, .found 1])) ∧
    ∃ n'', run (DS.toy 0) (alone "b" exOwn) exNode = .ok (n'', [.inserted () none, .done, .done, .found 1]) := by
  refine ⟨?_, run_answers (by decide +kernel), run_answers (by decide +kernel)⟩
  intro t t' u u' c c' f f' h h' _ he
  simp only [exOwn, exSearch, exInsert, List.mem_cons, Prod.mk.injEq, Req.search.injEq, reduceCtorEq, and_false, false_or, or_false,
    List.not_mem_nil] at h h'
  rcases h with ⟨_, _, rfl, _⟩ | ⟨_, _, rfl, _⟩ <;> rcases h' with ⟨_, _, rfl, _⟩ | ⟨_, _, rfl, _⟩ <;> first | rfl | simp at he

end Veri
