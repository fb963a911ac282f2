/-
C149, C150: requests that create, use and drop a data set at the same time, step by step.  One name; what happens under other names
does not touch it.
Modelled: data/dataset.go:65-143 (`Get`, `GetNoOp`, `GetNoCreate`, `GetOrCreateIfNotExists`, `CreateIfNotExists`, `Delete`), 190-207
(`ReloadRuns`), 24-28, 35 (`closeData` on eviction); data/data.go:73-96 (`NewPreData`, `InitData`), 108-118 (`Close`), 222-233
(`AddSource`); the checks at data/insert.go:15-17 and data/search.go:166-168.
Not modelled here: the configuration and its version (C49, C78), the data, what `Close` hands over (C41, C42).
Memory is sequentially consistent.  go-cache: `Get` and `Items` show an entry until it expires, `Add` fails if `Get` would find one,
the janitor removes expired entries, `Delete` and the janitor call `OnEvicted` for what they remove, `Add` does not for an expired
entry that it replaces.
-/
set_option autoImplicit false
namespace Veri
namespace Make

/-- A `*Data`. -/
structure Obj where
  /-- `Sources != nil` -/
  sources : Bool
  /-- `QueryCache != nil` -/
  cache : Bool
  alive : Bool
  inited : Bool
  /-- the thread in `dt.Lock()` -/
  lock : Option Nat
  /-- how often `Sources` has been set -/
  made : Nat
  /-- how often `go dt.Run()` has been executed -/
  loops : Nat
  deriving DecidableEq, Repr

/-- data/data.go:73-81 `NewPreData`. -/
def Obj.new : Obj := ⟨false, false, false, false, none, 0, 0⟩

/-- What a request is about. -/
inductive Kind where
  /-- node/nodeservice.go:221-229 `CreateDataIfNotExists` -/
  | make
  /-- node/nodeservice.go:35-51 `Insert` -/
  | insert
  /-- node/nodeservice.go:118-154 `SearchStream` -/
  | search
  /-- node/node.go:254-258: a data set of a peer -/
  | source
  deriving DecidableEq, Repr

/-- Steps of data/data.go:83-96 `InitData` under the lock. -/
inductive Ph where
  | entered | setSources | setCache | setAlive | run | setInited | unlock
  deriving DecidableEq, Repr

inductive T where
  | idle
  /-- before data/dataset.go:108 -/
  | create (k : Kind)
  /-- before data/dataset.go:111 -/
  | add (o : Nat) (k : Kind)
  /-- before the `Get` of data/dataset.go:66 or 89 -/
  | look (k : Kind)
  /-- with the data set, before the check whether it is initialized -/
  | check (o : Nat) (k : Kind)
  /-- before data/data.go:85; `u`: called by the check -/
  | init (o : Nat) (k : Kind) (u : Bool)
  /-- within the lock -/
  | crit (ph : Ph) (o : Nat) (k : Kind) (u : Bool)
  /-- works with the data set -/
  | serve (o : Nat) (k : Kind)
  /-- before data/dataset.go:191 -/
  | items
  /-- before data/dataset.go:195 -/
  | active (o : Nat)
  /-- before the `Get` of data/dataset.go:133 -/
  | delete
  /-- before `Alive = false` of `Close`, data/dataset.go:138, 198 -/
  | close (o : Nat)
  /-- before data/dataset.go:140, 204 -/
  | drop
  /-- before `Alive = false` of `Close`, called by go-cache -/
  | evict (o : Nat)
  /-- before the janitor of go-cache looks -/
  | janitor
  | done
  deriving DecidableEq, Repr

structure St where
  objs : Nat → Obj
  /-- the number of objects so far -/
  next : Nat
  /-- the entry in the list, and whether it has expired -/
  entry : Option (Nat × Bool)
  thr : Nat → T

def St.new : St := ⟨fun _ => .new, 0, none, fun _ => .idle⟩

def upd {α : Type} (f : Nat → α) (i : Nat) (a : α) : Nat → α := fun j => if j = i then a else f j

/-- Is the data set ready, as the request checks it? data/insert.go:15, data/search.go:166, data/data.go:226. -/
def Obj.readyFor (x : Obj) : Kind → Bool
  | .make => true
  | .insert => x.inited
  | .search => x.cache
  | .source => x.sources

inductive Label where
  /-- a request comes in -/
  | request (i : Nat) (k : Kind)
  /-- the periodic clean-up begins -/
  | cleanUp (i : Nat)
  /-- `Delete` is called -/
  | remove (i : Nat)
  /-- the janitor wakes up -/
  | wake (i : Nat)
  /-- the entry expires -/
  | expire
  /-- the next step of a thread; `b`: the data set is found active -/
  | go (i : Nat) (b : Bool)
  deriving DecidableEq, Repr

/-- The next step of thread `i`, which is at `t`. -/
def next (s : St) (i : Nat) (b : Bool) : T → Option St
  | .idle => none
  | .create k => some { s with next := s.next + 1, thr := upd s.thr i (.add s.next k) }
  | .add o k =>
    match s.entry with
    | some (_, false) => some { s with thr := upd s.thr i (.look k) }
    | _ => some { s with entry := some (o, false), thr := upd s.thr i (.init o k false) }
  | .look k =>
    match s.entry with
    | some (o, false) => some { s with thr := upd s.thr i (.check o k) }
    | _ => some { s with thr := upd s.thr i (if k = .search then .done else .create k) }
  | .check o k => some { s with thr := upd s.thr i (if (s.objs o).readyFor k then .serve o k else .init o k true) }
  | .init o k u =>
    if (s.objs o).lock = none then
      some { s with objs := upd s.objs o { s.objs o with lock := some i }, thr := upd s.thr i (.crit .entered o k u) }
    else none
  | .crit .entered o k u =>
    some { s with thr := upd s.thr i (.crit (if (s.objs o).inited then .unlock else .setSources) o k u) }
  | .crit .setSources o k u =>
    some { s with objs := upd s.objs o { s.objs o with sources := true, made := (s.objs o).made + 1 },
                  thr := upd s.thr i (.crit .setCache o k u) }
  | .crit .setCache o k u =>
    some { s with objs := upd s.objs o { s.objs o with cache := true }, thr := upd s.thr i (.crit .setAlive o k u) }
  | .crit .setAlive o k u =>
    some { s with objs := upd s.objs o { s.objs o with alive := true }, thr := upd s.thr i (.crit .run o k u) }
  | .crit .run o k u =>
    some { s with objs := upd s.objs o { s.objs o with loops := (s.objs o).loops + 1 }, thr := upd s.thr i (.crit .setInited o k u) }
  | .crit .setInited o k u =>
    some { s with objs := upd s.objs o { s.objs o with inited := true }, thr := upd s.thr i (.crit .unlock o k u) }
  | .crit .unlock o k u =>
    some { s with objs := upd s.objs o { s.objs o with lock := none },
                  thr := upd s.thr i (if u then .serve o k else .look k) }
  | .serve _ _ => none
  | .items =>
    match s.entry with
    | some (o, false) => some { s with thr := upd s.thr i (.active o) }
    | _ => some { s with thr := upd s.thr i .done }
  -- data/data.go:128-142 `CheckIfActive`: without sources and before the first run it is not
  | .active o => some { s with thr := upd s.thr i (if b && (s.objs o).sources then .done else .close o) }
  | .delete =>
    match s.entry with
    | some (o, false) => some { s with thr := upd s.thr i (.close o) }
    | _ => some { s with thr := upd s.thr i .done }
  | .close o => some { s with objs := upd s.objs o { s.objs o with alive := false }, thr := upd s.thr i .drop }
  | .drop =>
    match s.entry with
    | some (o, _) => some { s with entry := none, thr := upd s.thr i (.evict o) }
    | none => some { s with thr := upd s.thr i .done }
  | .evict o => some { s with objs := upd s.objs o { s.objs o with alive := false }, thr := upd s.thr i .done }
  | .janitor =>
    match s.entry with
    | some (o, true) => some { s with entry := none, thr := upd s.thr i (.evict o) }
    | _ => some { s with thr := upd s.thr i .done }
  | .done => none

/-- A thread begins. -/
def begin (s : St) (i : Nat) (t : T) : Option St :=
  if s.thr i = .idle then some { s with thr := upd s.thr i t } else none

def step (s : St) : Label → Option St
  | .request i k => begin s i (if k = .make ∨ k = .source then .create k else .look k)
  | .cleanUp i => begin s i .items
  | .remove i => begin s i .delete
  | .wake i => begin s i .janitor
  | .expire =>
    match s.entry with
    | some (o, _) => some { s with entry := some (o, true) }
    | none => none
  | .go i b => next s i b (s.thr i)

def exec (s : St) : List Label → Option St
  | [] => some s
  | l :: ls => (step s l).bind fun s => exec s ls

/-- The states that can be reached by steps that are `ok`. -/
inductive Reach (ok : St → Label → Prop) : St → Prop
  | new : Reach ok .new
  | step {s s' : St} (l : Label) : Reach ok s → ok s l → step s l = some s' → Reach ok s'

/-- The steps one after the other, as long as they are `ok`. -/
def execIf (ok : St → Label → Bool) (s : St) : List Label → Option St
  | [] => some s
  | l :: ls => if ok s l then (step s l).bind fun s => execIf ok s ls else none

theorem reach_execIf {ok : St → Label → Bool} : ∀ (ls : List Label) {s s' : St}, Reach (fun s l => ok s l = true) s →
    execIf ok s ls = some s' → Reach (fun s l => ok s l = true) s'
  | [], s, s', h, he => by simp only [execIf, Option.some.injEq] at he; exact he ▸ h
  | l :: ls, s, s', h, he => by
    simp only [execIf] at he
    split at he
    · cases hs : Make.step s l with
      | none => simp [hs] at he
      | some t => rw [hs] at he; exact reach_execIf ls (.step l h (by assumption) hs) he
    · cases he

theorem Reach.mono {ok ok' : St → Label → Prop} (hok : ∀ s l, ok s l → ok' s l) {s : St} (h : Reach ok s) : Reach ok' s := by
  induction h with
  | new => exact .new
  | step l _ h1 h2 ih => exact .step l ih (hok _ _ h1) h2

theorem reach_exec : ∀ (ls : List Label) {s s' : St}, Reach (fun _ _ => True) s → exec s ls = some s' → Reach (fun _ _ => True) s'
  | [], s, s', h, he => by simp only [exec, Option.some.injEq] at he; exact he ▸ h
  | l :: ls, s, s', h, he => by
    simp only [exec] at he
    cases hs : Make.step s l with
    | none => simp [hs] at he
    | some t => rw [hs] at he; exact reach_exec ls (.step l h trivial hs) he

/-! ### Specification -/

/-- A request works with a data set that has its sources, and for a search also its cache. -/
def Usable (x : Obj) : Kind → Prop
  | .make => True
  | .insert => x.sources = true
  | .search => x.sources = true ∧ x.cache = true
  | .source => x.sources = true

/-- `o` is not in the list, and whoever took it out has closed it. -/
def Gone (s : St) (o : Nat) : Prop := (∀ b, s.entry ≠ some (o, b)) ∧ ∀ i, s.thr i ≠ .evict o

/-- A data set is taken out of the list and closed only after it has been set up, and an expired one is not replaced before it has
been taken out. -/
def orderly (s : St) : Label → Bool
  | .go i _ =>
    match s.thr i with
    | .evict o => (s.objs o).inited
    | .add _ _ =>
      match s.entry with
      | some (_, true) => false
      | _ => true
    | _ => true
  | _ => true

/-! ### Lemmas -/

/-- As `NewPreData` left it. -/
def Fresh (x : Obj) : Prop := x.sources = false ∧ x.cache = false ∧ x.inited = false ∧ x.made = 0 ∧ x.loops = 0
/-- As `InitData` leaves it. -/
def Full (x : Obj) : Prop := x.sources = true ∧ x.cache = true ∧ x.inited = true ∧ x.made = 1 ∧ x.loops = 1

def Shape (x : Obj) : Ph → Prop
  | .entered => Fresh x ∨ Full x
  | .setSources => Fresh x
  | .setCache => x.sources = true ∧ x.cache = false ∧ x.inited = false ∧ x.made = 1 ∧ x.loops = 0
  | .setAlive => x.sources = true ∧ x.cache = true ∧ x.inited = false ∧ x.made = 1 ∧ x.loops = 0
  | .run => x.sources = true ∧ x.cache = true ∧ x.inited = false ∧ x.made = 1 ∧ x.loops = 0
  | .setInited => x.sources = true ∧ x.cache = true ∧ x.inited = false ∧ x.made = 1 ∧ x.loops = 1
  | .unlock => Full x

structure Inv (s : St) : Prop where
  holds : ∀ i ph o k u, s.thr i = .crit ph o k u → (s.objs o).lock = some i ∧ Shape (s.objs o) ph
  held : ∀ i o, (s.objs o).lock = some i → ∃ ph k u, s.thr i = .crit ph o k u
  free : ∀ o, (s.objs o).lock = none → Fresh (s.objs o) ∨ Full (s.objs o)
  serves : ∀ i o k, s.thr i = .serve o k → (s.objs o).readyFor k = true

theorem upd_same {α : Type} (f : Nat → α) (i : Nat) (a : α) : upd f i a i = a := by simp [upd]
theorem upd_other {α : Type} (f : Nat → α) {i j : Nat} (a : α) (h : j ≠ i) : upd f i a j = f j := by simp [upd, h]

/-- Thread `i` goes to `t`, object `o` becomes `x`. -/
theorem Inv.put {s : St} (h : Inv s) (i o : Nat) (x : Obj) (t : T)
    (hc : ∀ ph o' k u, t = .crit ph o' k u → o' = o ∧ x.lock = some i ∧ Shape x ph)
    (hl : ∀ j, x.lock = some j → (j = i ∧ ∃ ph k u, t = .crit ph o k u) ∨ (j ≠ i ∧ (s.objs o).lock = some j))
    (hj : ∀ j, j ≠ i → (s.objs o).lock = some j → x.lock = some j ∧ ∀ ph, Shape (s.objs o) ph → Shape x ph)
    (hf : x.lock = none → Fresh x ∨ Full x)
    (hr : ∀ k, (s.objs o).readyFor k = true → x.readyFor k = true)
    (ht : ∀ o' k, t = .serve o' k → o' = o ∧ x.readyFor k = true)
    (hi : ∀ ph o' k u, s.thr i = .crit ph o' k u → o' = o) (e : Option (Nat × Bool)) (n : Nat) :
    Inv ⟨upd s.objs o x, n, e, upd s.thr i t⟩ where
  holds := fun j ph o' k u hh => by
    simp only at hh ⊢
    by_cases e : j = i
    · subst e
      rw [upd_same] at hh
      obtain ⟨rfl, h1, h2⟩ := hc _ _ _ _ hh
      rw [upd_same]
      exact ⟨h1, h2⟩
    · rw [upd_other _ _ e] at hh
      obtain ⟨h1, h2⟩ := h.holds j ph o' k u hh
      by_cases e' : o' = o
      · subst e'
        rw [upd_same]
        exact ⟨(hj j e h1).1, (hj j e h1).2 _ h2⟩
      · rw [upd_other _ _ e']
        exact ⟨h1, h2⟩
  held := fun j o' hh => by
    simp only at hh ⊢
    by_cases e' : o' = o
    · subst e'
      rw [upd_same] at hh
      rcases hl j hh with ⟨rfl, ph, k, u, h1⟩ | ⟨hne, h1⟩
      · exact ⟨ph, k, u, by rw [upd_same]; exact h1⟩
      · obtain ⟨ph, k, u, h2⟩ := h.held j o' h1
        exact ⟨ph, k, u, by rw [upd_other _ _ hne]; exact h2⟩
    · rw [upd_other _ _ e'] at hh
      obtain ⟨ph, k, u, h2⟩ := h.held j o' hh
      have e : j ≠ i := fun e => e' (hi _ _ _ _ (e ▸ h2))
      exact ⟨ph, k, u, by rw [upd_other _ _ e]; exact h2⟩
  free := fun o' hh => by
    simp only at hh ⊢
    by_cases e' : o' = o
    · subst e'; rw [upd_same] at hh ⊢; exact hf hh
    · rw [upd_other _ _ e'] at hh ⊢; exact h.free o' hh
  serves := fun j o' k hh => by
    simp only at hh ⊢
    by_cases e : j = i
    · subst e
      rw [upd_same] at hh
      obtain ⟨rfl, h1⟩ := ht _ _ hh
      rw [upd_same]
      exact h1
    · rw [upd_other _ _ e] at hh
      have := h.serves j o' k hh
      by_cases e' : o' = o
      · subst e'; rw [upd_same]; exact hr k this
      · rw [upd_other _ _ e']; exact this

theorem upd_id {α : Type} (f : Nat → α) (i : Nat) : upd f i (f i) = f := by
  funext j
  by_cases e : j = i
  · subst e; rw [upd_same]
  · rw [upd_other _ _ e]

/-- A thread outside the lock goes to another place outside the lock. -/
theorem Inv.move {s : St} (h : Inv s) (i : Nat) (t : T) (e : Option (Nat × Bool)) (n : Nat)
    (h1 : ∀ ph o k u, s.thr i ≠ .crit ph o k u) (h2 : ∀ ph o k u, t ≠ .crit ph o k u)
    (h3 : ∀ o k, t = .serve o k → (s.objs o).readyFor k = true) : Inv ⟨s.objs, n, e, upd s.thr i t⟩ := by
  have key : ∀ o, (∀ o' k, t = .serve o' k → o' = o) → Inv ⟨upd s.objs o (s.objs o), n, e, upd s.thr i t⟩ := fun o ho =>
    h.put i o (s.objs o) t (fun ph o' k u ht => absurd ht (h2 _ _ _ _))
      (fun j hj => by
        obtain ⟨ph, k, u, h4⟩ := h.held j o hj
        exact .inr ⟨fun e => h1 _ _ _ _ (e ▸ h4), hj⟩)
      (fun j _ hj => ⟨hj, fun _ h => h⟩) (h.free o) (fun _ h => h)
      (fun o' k ht => by obtain rfl := ho _ _ ht; exact ⟨rfl, h3 _ _ ht⟩)
      (fun ph o' k u hi => absurd hi (h1 _ _ _ _)) e n
  simp only [upd_id] at key
  cases t with
  | serve o k => exact key o (fun o' k' ht => by injection ht with ht; exact ht.symm)
  | _ => exact key 0 (fun o' k' ht => by cases ht)

/-- A thread outside the lock closes an object. -/
theorem Inv.shut {s : St} (h : Inv s) (i o : Nat) (t : T) (e : Option (Nat × Bool)) (n : Nat)
    (h1 : ∀ ph o k u, s.thr i ≠ .crit ph o k u) (h2 : ∀ ph o k u, t ≠ .crit ph o k u) (h3 : ∀ o k, t ≠ .serve o k) :
    Inv ⟨upd s.objs o { s.objs o with alive := false }, n, e, upd s.thr i t⟩ :=
  h.put i o { s.objs o with alive := false } t (fun ph o' k u ht => absurd ht (h2 _ _ _ _))
    (fun j hj => by
      obtain ⟨ph, k, u, h4⟩ := h.held j o hj
      exact .inr ⟨fun e => h1 _ _ _ _ (e ▸ h4), hj⟩)
    (fun j _ hj => ⟨hj, fun ph h => by cases ph <;> exact h⟩) (fun hn => h.free o hn) (fun k h => by cases k <;> exact h)
    (fun o' k ht => absurd ht (h3 _ _)) (fun ph o' k u hi => absurd hi (h1 _ _ _ _)) e n

/-- The thread that holds the lock does a step under it. -/
theorem Inv.work {s : St} (h : Inv s) {i o : Nat} {ph : Ph} {k : Kind} {u : Bool} (hi : s.thr i = .crit ph o k u) (x : Obj) (ph' : Ph)
    (hx : x.lock = some i) (hs : Shape x ph') (hr : ∀ k, (s.objs o).readyFor k = true → x.readyFor k = true)
    (e : Option (Nat × Bool)) (n : Nat) :
    Inv ⟨upd s.objs o x, n, e, upd s.thr i (.crit ph' o k u)⟩ :=
  have hlock := (h.holds _ _ _ _ _ hi).1
  h.put i o x _ (fun ph o' k u ht => by injection ht with h1 h2 h3 h4; subst h1 h2 h3 h4; exact ⟨rfl, hx, hs⟩)
    (fun j hj => by
      rw [hx] at hj; injection hj with hj; exact .inl ⟨hj.symm, _, _, _, rfl⟩)
    (fun j hne hj => by rw [hlock] at hj; injection hj with hj; exact absurd hj.symm hne)
    (fun hn => by rw [hx] at hn; cases hn) hr (fun o' k ht => by cases ht)
    (fun ph o' k u ht => by rw [hi] at ht; injection ht with h1 h2; exact h2.symm) e n

theorem inv_next {s s' : St} (h : Inv s) (i : Nat) (b : Bool) (hs : next s i b (s.thr i) = some s') : Inv s' := by
  have hlock : ∀ ph o k u, s.thr i = .crit ph o k u → _ := fun ph o k u e => h.holds i ph o k u e
  cases ht : s.thr i with
  | idle => rw [ht] at hs; cases hs
  | create k =>
    rw [ht] at hs; cases hs
    exact h.move i _ _ _ (by simp [ht]) (by simp) (by simp)
  | add o k =>
    rw [ht] at hs
    simp only [next] at hs
    split at hs <;> cases hs <;> exact h.move i _ _ _ (by simp [ht]) (by simp) (by simp)
  | look k =>
    rw [ht] at hs
    simp only [next] at hs
    split at hs
    · cases hs; exact h.move i _ _ _ (by simp [ht]) (by simp) (by simp)
    · cases hs; refine h.move i _ _ _ (by simp [ht]) ?_ ?_ <;> split <;> simp
  | check o k =>
    rw [ht] at hs
    cases hs
    refine h.move i _ _ _ (by simp [ht]) ?_ ?_
    · split <;> simp
    · intro o' k' he
      split at he
      · injection he with h1 h2; subst h1 h2; assumption
      · cases he
  | init o k u =>
    rw [ht] at hs
    simp only [next] at hs
    split at hs
    · rename_i hn
      cases hs
      refine h.put i o _ _ ?_ ?_ ?_ ?_ ?_ ?_ ?_ _ _
      · intro ph o' k' u' he
        injection he with h1 h2 h3 h4; subst h1 h2 h3 h4
        exact ⟨rfl, rfl, by have := h.free o hn; simpa [Shape, Fresh, Full] using this⟩
      · intro j hj
        simp only [Option.some.injEq] at hj
        exact .inl ⟨hj.symm, _, _, _, rfl⟩
      · intro j _ hj; rw [hn] at hj; cases hj
      · intro hx; cases hx
      · intro k hk; cases k <;> exact hk
      · intro o' k' he; cases he
      · intro ph o' k' u' he; rw [ht] at he; cases he
    · cases hs
  | crit ph o k u =>
    obtain ⟨h1, h2⟩ := hlock _ _ _ _ ht
    rw [ht] at hs
    cases ph with
    | entered =>
      cases hs
      have := h.work ht (s.objs o) (if (s.objs o).inited then .unlock else .setSources) h1
        (by
          rcases h2 with h2 | h2
          · rw [if_neg (by simp [h2.2.2.1])]; exact h2
          · rw [if_pos h2.2.2.1]; exact h2) (fun _ h => h) s.entry s.next
      rwa [upd_id] at this
    | setSources =>
      cases hs
      refine h.work ht _ _ ?_ ?_ ?_ _ _
      · exact h1
      · exact ⟨rfl, h2.2.1, h2.2.2.1, by simp [h2.2.2.2.1], h2.2.2.2.2⟩
      intro k hk; cases k
      · rfl
      · exact hk
      · exact hk
      · rfl
    | setCache =>
      cases hs
      refine h.work ht _ _ ?_ ?_ ?_ _ _
      · exact h1
      · exact ⟨h2.1, rfl, h2.2.2.1, h2.2.2.2.1, h2.2.2.2.2⟩
      intro k hk; cases k
      · rfl
      · exact hk
      · rfl
      · exact hk
    | setAlive =>
      cases hs
      refine h.work ht _ _ ?_ ?_ ?_ _ _
      · exact h1
      · exact h2
      intro k hk; cases k <;> exact hk
    | run =>
      cases hs
      refine h.work ht _ _ ?_ ?_ ?_ _ _
      · exact h1
      · exact ⟨h2.1, h2.2.1, h2.2.2.1, h2.2.2.2.1, by simp [h2.2.2.2.2]⟩
      intro k hk; cases k <;> exact hk
    | setInited =>
      cases hs
      refine h.work ht _ _ ?_ ?_ ?_ _ _
      · exact h1
      · exact ⟨h2.1, h2.2.1, rfl, h2.2.2.2.1, h2.2.2.2.2⟩
      intro k hk; cases k
      · rfl
      · rfl
      · exact hk
      · exact hk
    | unlock =>
      cases hs
      refine h.put i o _ _ ?_ ?_ ?_ ?_ ?_ ?_ ?_ _ _
      · intro ph o' k' u' he; split at he <;> cases he
      · intro j hj; cases hj
      · intro j hne hj; rw [h1] at hj; injection hj with hj; exact absurd hj.symm hne
      · intro _; exact .inr h2
      · intro k hk; cases k <;> exact hk
      · intro o' k' he
        split at he
        · injection he with e1 e2; subst e1 e2
          refine ⟨rfl, ?_⟩
          cases k
          · rfl
          · exact h2.2.2.1
          · exact h2.2.1
          · exact h2.1
        · cases he
      · intro ph o' k' u' he; rw [ht] at he; injection he with e1 e2; exact e2.symm
  | serve o k => rw [ht] at hs; cases hs
  | items =>
    rw [ht] at hs
    simp only [next] at hs
    split at hs <;> cases hs <;> exact h.move i _ _ _ (by simp [ht]) (by simp) (by simp)
  | active o =>
    rw [ht] at hs; cases hs
    refine h.move i _ _ _ (by simp [ht]) ?_ ?_ <;> split <;> simp
  | delete =>
    rw [ht] at hs
    simp only [next] at hs
    split at hs <;> cases hs <;> exact h.move i _ _ _ (by simp [ht]) (by simp) (by simp)
  | close o =>
    rw [ht] at hs; cases hs
    exact h.shut i o _ _ _ (by simp [ht]) (by simp) (by simp)
  | drop =>
    rw [ht] at hs
    simp only [next] at hs
    split at hs <;> cases hs <;> exact h.move i _ _ _ (by simp [ht]) (by simp) (by simp)
  | evict o =>
    rw [ht] at hs; cases hs
    exact h.shut i o _ _ _ (by simp [ht]) (by simp) (by simp)
  | janitor =>
    rw [ht] at hs
    simp only [next] at hs
    split at hs <;> cases hs <;> exact h.move i _ _ _ (by simp [ht]) (by simp) (by simp)
  | done => rw [ht] at hs; cases hs

theorem inv_begin {s s' : St} (h : Inv s) (i : Nat) (t : T) (h2 : ∀ ph o k u, t ≠ .crit ph o k u) (h3 : ∀ o k, t ≠ .serve o k)
    (hs : begin s i t = some s') : Inv s' := by
  unfold begin at hs
  split at hs
  · rename_i hi
    cases hs
    exact h.move i t _ _ (by simp [hi]) h2 (fun o k e => absurd e (h3 o k))
  · cases hs

theorem inv_step {s s' : St} (h : Inv s) (l : Label) (hs : step s l = some s') : Inv s' := by
  cases l with
  | request i k => exact inv_begin h i _ (by split <;> simp) (by split <;> simp) hs
  | cleanUp i => exact inv_begin h i _ (by simp) (by simp) hs
  | remove i => exact inv_begin h i _ (by simp) (by simp) hs
  | wake i => exact inv_begin h i _ (by simp) (by simp) hs
  | expire =>
    simp only [step] at hs
    split at hs
    · cases hs; exact ⟨h.holds, h.held, h.free, h.serves⟩
    · cases hs
  | go i b => exact inv_next h i b hs

theorem inv_new : Inv .new where
  holds := fun i ph o k u h => by cases h
  held := fun i o h => by cases h
  free := fun o _ => .inl ⟨rfl, rfl, rfl, rfl, rfl⟩
  serves := fun i o k h => by cases h

theorem inv_reach {ok : St → Label → Prop} {s : St} (h : Reach ok s) : Inv s := by
  induction h with
  | new => exact inv_new
  | step l _ _ hs ih => exact inv_step ih l hs

/-- In every phase: the sources are set at most once, one loop is started, the cache is set after the sources, and so on. -/
theorem Inv.always {s : St} (h : Inv s) (o : Nat) : (s.objs o).made ≤ 1 ∧ (s.objs o).loops ≤ 1 ∧
    ((s.objs o).cache = true → (s.objs o).sources = true) ∧ ((s.objs o).inited = true → Full (s.objs o)) := by
  have key : ∀ {x : Obj} {ph : Ph}, Shape x ph → x.made ≤ 1 ∧ x.loops ≤ 1 ∧ (x.cache = true → x.sources = true) ∧
      (x.inited = true → Full x) := by
    intro x ph hs
    cases ph
    case entered =>
      rcases hs with hs | hs
      · obtain ⟨a, b, c, d, e⟩ := hs; simp [a, b, c, d, e]
      · obtain ⟨a, b, c, d, e⟩ := id hs; simp [a, d, e, hs]
    case unlock => exact ⟨by rw [hs.2.2.2.1]; decide, by rw [hs.2.2.2.2]; decide, fun _ => hs.1, fun _ => hs⟩
    all_goals obtain ⟨a, b, c, d, e⟩ := hs; simp [a, b, c, d, e]
  cases hl : (s.objs o).lock with
  | none => exact key (ph := .entered) (h.free o hl)
  | some i =>
    obtain ⟨ph, k, u, hi⟩ := h.held i o hl
    exact key (h.holds _ _ _ _ _ hi).2

end Make
open Make

/-! ### C149 -/

/-- C149: however requests, clean-ups, deletions and expiry interleave, a data set is set up at most once, by whoever comes first: its
sources are made once and its maintenance loop is started once; and a request that goes on to work with it finds it set up. -/
theorem C149_set_up_once (s : St) (h : Reach (fun _ _ => True) s) :
    (∀ o, (s.objs o).made ≤ 1 ∧ (s.objs o).loops ≤ 1) ∧ ∀ i o k, s.thr i = .serve o k → Usable (s.objs o) k := by
  have hi := inv_reach h
  refine ⟨fun o => ⟨(hi.always o).1, (hi.always o).2.1⟩, fun i o k ht => ?_⟩
  have hr := hi.serves i o k ht
  obtain ⟨_, _, h1, h2⟩ := hi.always o
  cases k with
  | make => trivial
  | insert => exact (h2 hr).1
  | search => exact ⟨h1 hr, hr⟩
  | source => exact hr

/-- C149: nobody waits in vain: if a request waits for the lock of a data set, some thread has it and can go on. -/
theorem C149_progress (s : St) (h : Reach (fun _ _ => True) s) (i o : Nat) (k : Kind) (u : Bool) (hi : s.thr i = .init o k u) :
    (step s (.go i false)).isSome = true ∨
      ∃ j ph k u, s.thr j = .crit ph o k u ∧ (step s (.go j false)).isSome = true := by
  cases hl : (s.objs o).lock with
  | none => left; simp [step, hi, next, hl]
  | some j =>
    right
    obtain ⟨ph, k, u, hj⟩ := (inv_reach h).held j o hl
    exact ⟨j, ph, k, u, hj, by cases ph <;> simp [step, hj, next]⟩

namespace Make

/-- Thread `i` does `n` steps. -/
def goes (i n : Nat) : List Label := List.replicate n (.go i false)

theorem any_exec {s : St} {ls : List Label} {p : St → Bool} (h : (exec s ls).any p = true) : ∃ s', exec s ls = some s' ∧ p s' = true := by
  cases he : exec s ls with
  | none => simp [he] at h
  | some t => exact ⟨t, rfl, by simpa [he] using h⟩

/-- Two inserts come in when the data set does not exist yet, and both try to create it; a search comes in while it is set up. -/
def exTogether : List Label :=
  [.request 0 .insert, .request 1 .insert] ++ goes 0 2 ++ goes 1 3 ++ [.request 2 .search] ++ goes 2 2 ++ goes 1 5 ++ goes 0 2 ++
    goes 1 5 ++ goes 0 1 ++ goes 2 3

end Make

/-- C149, a case: the second insert creates the data set, the search waits for it; in the end all three work with the one data set. -/
theorem C149_example : ∃ s, Reach (fun _ _ => True) s ∧ s.thr 0 = .serve 1 .insert ∧ s.thr 1 = .serve 1 .insert ∧
    s.thr 2 = .serve 1 .search ∧ s.entry = some (1, false) ∧ s.objs 1 = ⟨true, true, true, true, none, 1, 1⟩ := by
  obtain ⟨s, h1, h2⟩ := any_exec (s := .new) (ls := exTogether) (p := fun s => decide (s.thr 0 = .serve 1 .insert ∧
    s.thr 1 = .serve 1 .insert ∧ s.thr 2 = .serve 1 .search ∧ s.entry = some (1, false) ∧
    s.objs 1 = ⟨true, true, true, true, none, 1, 1⟩)) (by decide +kernel)
  exact ⟨s, reach_exec _ .new h1, of_decide_eq_true h2⟩

/-! ### C150 -/

/-- C150, full statement: a data set that has been taken out of the list is stopped (its maintenance loop ends, data/data.go:155).
FALSE of the code. -/
def C150_stopped_statement : Prop :=
  ∀ s, Reach (fun _ _ => True) s → ∀ o, Gone s o → (s.objs o).alive = false

namespace Make

/-- Nobody has the data set and can still set it up. -/
def Private (s : St) (o : Nat) : Prop := ∀ i k, s.thr i ≠ .check o k ∧ (∀ u, s.thr i ≠ .init o k u) ∧ ∀ ph u, s.thr i ≠ .crit ph o k u

/-- In the list, or about to be closed, or stopped for good. -/
def Kept (s : St) (o : Nat) : Prop :=
  (∃ b, s.entry = some (o, b)) ∨ (∃ i, s.thr i = .evict o) ∨ ((s.objs o).alive = false ∧ ((s.objs o).inited = true ∨ Private s o))

/-- A step of thread `i`, which is not closing, to `t`, with the entry and the objects (as far as this concerns `o`) unchanged. -/
theorem Kept.move {s : St} {o : Nat} (h : Kept s o) (i : Nat) (t : T) (objs : Nat → Obj) (n : Nat) (e : Option (Nat × Bool))
    (he : ∀ b, s.entry = some (o, b) → ∃ b, e = some (o, b)) (hi : s.thr i ≠ .evict o)
    (ha : (s.objs o).alive = false → (objs o).alive = false ∨ (∃ b, e = some (o, b)) ∨ ¬ (s.objs o).inited = true ∧ ¬ Private s o)
    (hin : (s.objs o).inited = true → (objs o).inited = true)
    (hp : Private s o → (∃ b, e = some (o, b)) ∨ ∀ k, t ≠ .check o k ∧ (∀ u, t ≠ .init o k u) ∧ ∀ ph u, t ≠ .crit ph o k u) :
    Kept ⟨objs, n, e, upd s.thr i t⟩ o := by
  rcases h with ⟨b, h⟩ | ⟨j, h⟩ | ⟨h1, h2⟩
  · exact .inl (he b h)
  · refine .inr (.inl ⟨j, ?_⟩)
    have : j ≠ i := fun e => hi (e ▸ h)
    simp only [upd_other _ _ this]
    exact h
  · rcases ha h1 with ha | ha | ha
    · rcases h2 with h2 | h2
      · exact .inr (.inr ⟨ha, .inl (hin h2)⟩)
      · rcases hp h2 with hp | hp
        · exact .inl hp
        · refine .inr (.inr ⟨ha, .inr fun j k => ?_⟩)
          by_cases e : j = i
          · subst e; simp only [upd_same]; exact hp k
          · simp only [upd_other _ _ e]; exact h2 j k
    · exact .inl ha
    · exact absurd h2 (fun h2 => h2.elim ha.1 ha.2)

theorem kept_next {s s' : St} (hv : Inv s) (h : ∀ o, Kept s o) (i : Nat) (b : Bool) (hok : orderly s (.go i b) = true)
    (hs : next s i b (s.thr i) = some s') (o : Nat) : Kept s' o := by
  simp only [orderly] at hok
  -- a step that leaves the objects and the entry as they are
  have plain : ∀ (t : T) (n : Nat), (∀ o, s.thr i ≠ .evict o) →
      ((∃ b, s.entry = some (o, b)) ∨ ¬ Private s o ∨ ∀ k, t ≠ .check o k ∧ (∀ u, t ≠ .init o k u) ∧ ∀ ph u, t ≠ .crit ph o k u) →
      Kept ⟨s.objs, n, s.entry, upd s.thr i t⟩ o := fun t n h1 h2 =>
    (h o).move i t _ _ _ (fun b hb => ⟨b, hb⟩) (h1 o) (fun ha => .inl ha) (fun hi => hi)
      (fun hp => h2.elim .inl fun h2 => h2.elim (fun h2 => absurd hp h2) .inr)
  cases ht : s.thr i with
  | idle => rw [ht] at hs; cases hs
  | create k =>
    rw [ht] at hs; cases hs
    exact plain _ _ (by simp [ht]) (.inr (.inr (by simp)))
  | add o' k =>
    rw [ht] at hs hok
    simp only [next] at hs
    split at hs
    · cases hs; exact plain _ _ (by simp [ht]) (.inr (.inr (by simp)))
    · rename_i hne
      cases hs
      have hnone : s.entry = none := by
        cases he : s.entry with
        | none => rfl
        | some p =>
          obtain ⟨o2, b2⟩ := p
          cases b2 with
          | false => exact absurd he (hne o2)
          | true => simp [he] at hok
      refine (h o).move i _ _ _ _ (fun b hb => by rw [hnone] at hb; cases hb) (by simp [ht]) (fun ha => .inl ha) (fun hi => hi) fun _ => ?_
      by_cases e : o = o'
      · subst e; exact .inl ⟨false, rfl⟩
      · refine .inr fun k' => ⟨by simp, fun u he => ?_, by simp⟩
        injection he with he; exact e he.symm
  | look k =>
    rw [ht] at hs
    simp only [next] at hs
    split at hs
    · rename_i o' he
      cases hs
      by_cases e : o = o'
      · subst e; exact plain _ _ (by simp [ht]) (.inl ⟨false, he⟩)
      · refine plain _ _ (by simp [ht]) (.inr (.inr fun k' => ⟨fun he => ?_, by simp, by simp⟩))
        injection he with he; exact e he.symm
    · cases hs
      refine plain _ _ (by simp [ht]) (.inr (.inr ?_))
      split <;> simp
  | check o' k =>
    rw [ht] at hs; cases hs
    by_cases e : o = o'
    · subst e
      exact plain _ _ (by simp [ht]) (.inr (.inl fun hp => (hp i k).1 ht))
    · refine plain _ _ (by simp [ht]) (.inr (.inr fun k' => ?_))
      split
      · simp
      · refine ⟨by simp, fun u he => ?_, by simp⟩
        injection he with he; exact e he.symm
  | init o' k u =>
    rw [ht] at hs
    simp only [next] at hs
    split at hs
    · cases hs
      by_cases e : o = o'
      · subst e
        refine (h o).move i _ _ _ _ (fun b hb => ⟨b, hb⟩) (by simp [ht]) (fun ha => .inl ?_) (fun hi => ?_) fun hp => ?_
        · simp only [upd_same]; exact ha
        · simp only [upd_same]; exact hi
        · exact absurd ht ((hp i k).2.1 u)
      · refine (h o).move i _ _ _ _ (fun b hb => ⟨b, hb⟩) (by simp [ht]) (fun ha => .inl ?_) (fun hi => ?_) fun hp => .inr fun k' => ?_
        · simp only [upd_other _ _ e]; exact ha
        · simp only [upd_other _ _ e]; exact hi
        · refine ⟨by simp, by simp, fun ph u he => ?_⟩
          injection he with _ he; exact e he.symm
    · cases hs
  | crit ph o' k u =>
    rw [ht] at hs
    by_cases e : o = o'
    · subst e
      obtain ⟨h1, h2⟩ := hv.holds _ _ _ _ _ ht
      have hnp : ¬ Private s o := fun hp => (hp i k).2.2 ph u ht
      have key : ∀ (t : T) (x : Obj), (x.alive = (s.objs o).alive ∨ ¬ (s.objs o).inited = true) →
          ((s.objs o).inited = true → x.inited = true) → Kept ⟨upd s.objs o x, s.next, s.entry, upd s.thr i t⟩ o := fun t x hx hy => by
        refine (h o).move i _ _ _ _ (fun b hb => ⟨b, hb⟩) (by simp [ht]) (fun ha => ?_) (fun hi => ?_) fun hp => absurd hp hnp
        · rcases hx with hx | hx
          · exact .inl (by simp only [upd_same]; rw [hx]; exact ha)
          · exact .inr (.inr ⟨hx, hnp⟩)
        · simp only [upd_same]; exact hy hi
      cases ph with
      | entered =>
        cases hs
        exact plain _ _ (by simp [ht]) (.inr (.inl hnp))
      | setSources => cases hs; exact key _ _ (.inl rfl) (fun h => h)
      | setCache => cases hs; exact key _ _ (.inl rfl) (fun h => h)
      | setAlive => cases hs; exact key _ _ (.inr (by simp [h2.2.2.1])) (fun h => h)
      | run => cases hs; exact key _ _ (.inl rfl) (fun h => h)
      | setInited => cases hs; exact key _ _ (.inl rfl) (fun _ => rfl)
      | unlock => cases hs; exact key _ _ (.inl rfl) (fun h => h)
    · have key : ∀ (t : T) (x : Obj), (∀ k, t ≠ .check o k ∧ (∀ u, t ≠ .init o k u) ∧ ∀ ph u, t ≠ .crit ph o k u) →
          Kept ⟨upd s.objs o' x, s.next, s.entry, upd s.thr i t⟩ o := fun t x hx => by
        refine (h o).move i _ _ _ _ (fun b hb => ⟨b, hb⟩) (by simp [ht]) (fun ha => .inl ?_) (fun hi => ?_) fun hp => .inr hx
        · simp only [upd_other _ _ e]; exact ha
        · simp only [upd_other _ _ e]; exact hi
      have hcrit : ∀ (ph' : Ph) (k' : Kind), T.crit ph' o' k u ≠ .check o k' ∧ (∀ u', T.crit ph' o' k u ≠ .init o k' u') ∧
          ∀ ph2 u', T.crit ph' o' k u ≠ .crit ph2 o k' u' := fun ph' k' => by
        refine ⟨by simp, by simp, fun ph2 u' he => ?_⟩
        injection he with _ he; exact e he.symm
      cases ph with
      | entered =>
        cases hs
        exact plain _ _ (by simp [ht]) (.inr (.inr (hcrit _)))
      | setSources => cases hs; exact key _ _ (hcrit _)
      | setCache => cases hs; exact key _ _ (hcrit _)
      | setAlive => cases hs; exact key _ _ (hcrit _)
      | run => cases hs; exact key _ _ (hcrit _)
      | setInited => cases hs; exact key _ _ (hcrit _)
      | unlock => cases hs; exact key _ _ (by split <;> simp)
  | serve o' k => rw [ht] at hs; cases hs
  | items =>
    rw [ht] at hs
    simp only [next] at hs
    split at hs <;> cases hs <;> exact plain _ _ (by simp [ht]) (.inr (.inr (by simp)))
  | active o' =>
    rw [ht] at hs; cases hs
    refine plain _ _ (by simp [ht]) (.inr (.inr ?_))
    split <;> simp
  | delete =>
    rw [ht] at hs
    simp only [next] at hs
    split at hs <;> cases hs <;> exact plain _ _ (by simp [ht]) (.inr (.inr (by simp)))
  | close o' =>
    rw [ht] at hs; cases hs
    refine (h o).move i _ _ _ _ (fun b hb => ⟨b, hb⟩) (by simp [ht]) (fun ha => .inl ?_) (fun hi => ?_) fun _ => .inr (by simp)
    · by_cases e : o = o'
      · subst e; simp only [upd_same]
      · simp only [upd_other _ _ e]; exact ha
    · by_cases e : o = o'
      · subst e; simp only [upd_same]; exact hi
      · simp only [upd_other _ _ e]; exact hi
  | drop =>
    rw [ht] at hs
    simp only [next] at hs
    split at hs
    · rename_i o' b' he
      cases hs
      by_cases e : o = o'
      · subst e; exact .inr (.inl ⟨i, by simp only [upd_same]⟩)
      · refine (h o).move i _ _ _ _ (fun b hb => ?_) (by simp [ht]) (fun ha => .inl ha) (fun hi => hi) fun _ => .inr (by simp)
        rw [he] at hb; injection hb with hb; injection hb with hb; exact absurd hb.symm e
    · cases hs; exact plain _ _ (by simp [ht]) (.inr (.inr (by simp)))
  | evict o' =>
    rw [ht] at hs hok; cases hs
    simp only at hok
    by_cases e : o = o'
    · subst e
      exact .inr (.inr ⟨by simp only [upd_same], .inl (by simp only [upd_same]; exact hok)⟩)
    · refine (h o).move i _ _ _ _ (fun b hb => ⟨b, hb⟩) (fun he => ?_) (fun ha => .inl ?_) (fun hi => ?_) fun _ => .inr (by simp)
      · rw [ht] at he; injection he with he; exact e he.symm
      · simp only [upd_other _ _ e]; exact ha
      · simp only [upd_other _ _ e]; exact hi
  | janitor =>
    rw [ht] at hs
    simp only [next] at hs
    split at hs
    · rename_i o' he
      cases hs
      by_cases e : o = o'
      · subst e; exact .inr (.inl ⟨i, by simp only [upd_same]⟩)
      · refine (h o).move i _ _ _ _ (fun b hb => ?_) (by simp [ht]) (fun ha => .inl ha) (fun hi => hi) fun _ => .inr (by simp)
        rw [he] at hb; injection hb with hb; injection hb with hb; exact absurd hb.symm e
    · cases hs; exact plain _ _ (by simp [ht]) (.inr (.inr (by simp)))
  | done => rw [ht] at hs; cases hs

theorem kept_begin {s s' : St} {o : Nat} (h : Kept s o) (i : Nat) (t : T)
    (ht : ∀ k, t ≠ .check o k ∧ (∀ u, t ≠ .init o k u) ∧ ∀ ph u, t ≠ .crit ph o k u) (hs : begin s i t = some s') : Kept s' o := by
  unfold begin at hs
  split at hs
  · rename_i hi
    cases hs
    exact h.move i t _ _ _ (fun b hb => ⟨b, hb⟩) (by simp [hi]) (fun ha => .inl ha) (fun hi => hi) fun _ => .inr ht
  · cases hs

theorem kept_reach {s : St} (h : Reach (fun s l => orderly s l = true) s) : ∀ o, Kept s o := by
  induction h with
  | new => exact fun o => .inr (.inr ⟨rfl, .inr fun i k => ⟨by simp [St.new], by simp [St.new], by simp [St.new]⟩⟩)
  | @step s s' l hr hok hs ih =>
    intro o
    cases l with
    | request i k => exact kept_begin (ih o) i _ (by split <;> simp) hs
    | cleanUp i => exact kept_begin (ih o) i _ (by simp) hs
    | remove i => exact kept_begin (ih o) i _ (by simp) hs
    | wake i => exact kept_begin (ih o) i _ (by simp) hs
    | expire =>
      simp only [step] at hs
      split at hs
      · rename_i o' b' he
        cases hs
        rcases ih o with ⟨b, h⟩ | h | h
        · rw [he] at h; injection h with h; injection h with h; subst h; exact .inl ⟨true, rfl⟩
        · exact .inr (.inl h)
        · exact .inr (.inr h)
      · cases hs
    | go i b => exact kept_next (inv_reach hr) ih i b hok hs o

/-- A data set is created, and the clean-up meets it before it is set up. -/
def exEarly : List Label :=
  [.request 0 .insert] ++ goes 0 3 ++ [.cleanUp 1] ++ List.replicate 5 (.go 1 true) ++ goes 0 21

/-- A data set expires, and is created again before the janitor comes. -/
def exReplaced : List Label :=
  [.request 0 .insert] ++ goes 0 13 ++ [.expire, .request 1 .insert] ++ goes 1 13 ++ [.wake 2] ++ goes 2 1

/-- A data set is created, deleted and created again. -/
def exOrderly : List Label :=
  [.request 0 .insert] ++ goes 0 13 ++ [.remove 1] ++ goes 1 4 ++ [.request 2 .insert] ++ goes 2 13

end Make

/-- C150, the part that holds: it is, if whenever a data set is taken out it has been set up before it is closed, and no expired data
set is replaced before the janitor takes it out. -/
theorem C150_stopped_partial (s : St) (h : Reach (fun s l => orderly s l = true) s) (o : Nat) (hg : Gone s o) :
    (s.objs o).alive = false := by
  rcases kept_reach h o with ⟨b, h⟩ | ⟨i, h⟩ | h
  · exact absurd h (hg.1 b)
  · exact absurd h (hg.2 i)
  · exact h.1

namespace Make

/-- The thread of a step. -/
def Label.tid : Label → Nat
  | .request i _ => i
  | .cleanUp i => i
  | .remove i => i
  | .wake i => i
  | .expire => 0
  | .go i _ => i

theorem next_other {s s' : St} {i : Nat} {b : Bool} {t : T} (h : next s i b t = some s') {j : Nat} (hj : j ≠ i) : s'.thr j = s.thr j := by
  cases t with
  | crit ph o k u => cases ph <;> (cases h; simp only [upd_other _ _ hj])
  | _ =>
    simp only [next] at h
    repeat' split at h
    all_goals first
      | (cases h; done)
      | (cases h; simp only [upd_other _ _ hj])

theorem step_other {s s' : St} {l : Label} (h : step s l = some s') {j : Nat} (hj : j ≠ l.tid) : s'.thr j = s.thr j := by
  have hb : ∀ {i : Nat} {t : T}, begin s i t = some s' → j ≠ i → s'.thr j = s.thr j := fun h hj => by
    unfold begin at h
    split at h
    · cases h; simp only [upd_other _ _ hj]
    · cases h
  cases l with
  | request i k => exact hb h hj
  | cleanUp i => exact hb h hj
  | remove i => exact hb h hj
  | wake i => exact hb h hj
  | expire =>
    simp only [step] at h
    split at h
    · cases h; rfl
    · cases h
  | go i b => exact next_other h hj

/-- A thread without a step stays where it is. -/
theorem exec_other : ∀ (ls : List Label) {s s' : St}, exec s ls = some s' → ∀ {j : Nat}, (∀ l ∈ ls, j ≠ l.tid) → s'.thr j = s.thr j
  | [], s, s', h, j, _ => by simp only [exec, Option.some.injEq] at h; rw [h]
  | l :: ls, s, s', h, j, hj => by
    simp only [exec] at h
    cases hs : Make.step s l with
    | none => simp [hs] at h
    | some t =>
      rw [hs] at h
      rw [exec_other ls h (fun l hl => hj l (List.mem_cons_of_mem _ hl)), step_other hs (hj l List.mem_cons_self)]

theorem execIf_exec {ok : St → Label → Bool} : ∀ (ls : List Label) {s s' : St}, execIf ok s ls = some s' → exec s ls = some s'
  | [], _, _, h => h
  | l :: ls, s, s', h => by
    simp only [execIf] at h
    split at h
    · cases hs : Make.step s l with
      | none => simp [hs] at h
      | some t =>
        rw [hs] at h
        simp only [exec, hs]
        exact execIf_exec ls h
    · cases h

/-- `Gone`, for a run of the threads 0, 1 and 2. -/
def goneOf (s : St) (o : Nat) : Bool :=
  (match s.entry with
   | some (o', _) => decide (o ≠ o')
   | none => true) && (List.range 3).all fun i => decide (s.thr i ≠ .evict o)

theorem gone_of {ls : List Label} {s : St} {o : Nat} (h : exec .new ls = some s) (hl : (ls.all fun l => decide (l.tid < 3)) = true)
    (hg : goneOf s o = true) : Gone s o := by
  unfold goneOf at hg
  rw [Bool.and_eq_true] at hg
  refine ⟨fun b hb => ?_, fun i hi => ?_⟩
  · have := hg.1
    rw [hb] at this
    simp at this
  · by_cases h3 : i < 3
    · have := List.all_eq_true.1 hg.2 i (List.mem_range.2 h3)
      exact of_decide_eq_true this hi
    · rw [exec_other ls h (j := i)] at hi
      · cases hi
      · intro l hl'
        have := of_decide_eq_true (List.all_eq_true.1 hl l hl')
        omega

end Make

/-- C150, counterexample: the clean-up meets a data set that is in the list and not yet set up, closes it and takes it out; then it is
set up, and its maintenance loop never ends.  The insert goes to a new data set of that name.  (The clean-up would have kept the data set, had it
been set up: its steps are the `.go 1 true` of the schedule.) -/
theorem C150_early : ∃ s, Make.exec .new exEarly = some s ∧ Reach (fun _ _ => True) s ∧ Gone s 0 ∧ (s.objs 0).alive = true ∧ (s.objs 0).loops = 1 ∧
    s.thr 0 = .serve 1 .insert ∧ s.thr 1 = .done := by
  obtain ⟨s, h1, h2⟩ := any_exec (s := .new) (ls := exEarly) (p := fun s => goneOf s 0 && decide ((s.objs 0).alive = true ∧
    (s.objs 0).loops = 1 ∧ s.thr 0 = .serve 1 .insert ∧ s.thr 1 = .done)) (by decide +kernel)
  rw [Bool.and_eq_true] at h2
  exact ⟨s, h1, reach_exec _ .new h1, gone_of h1 (by decide +kernel) h2.1, of_decide_eq_true h2.2⟩

/-- C150, counterexample: a data set expires, and the next insert puts a new one in its place before the janitor comes; nobody closes
the old one. -/
theorem C150_replaced : ∃ s, Reach (fun _ _ => True) s ∧ Gone s 0 ∧ (s.objs 0).alive = true ∧ (s.objs 0).loops = 1 ∧
    s.thr 0 = .serve 0 .insert ∧ s.thr 1 = .serve 1 .insert ∧ s.thr 2 = .done := by
  obtain ⟨s, h1, h2⟩ := any_exec (s := .new) (ls := exReplaced) (p := fun s => goneOf s 0 && decide ((s.objs 0).alive = true ∧
    (s.objs 0).loops = 1 ∧ s.thr 0 = .serve 0 .insert ∧ s.thr 1 = .serve 1 .insert ∧ s.thr 2 = .done)) (by decide +kernel)
  rw [Bool.and_eq_true] at h2
  exact ⟨s, reach_exec _ .new h1, gone_of h1 (by decide +kernel) h2.1, of_decide_eq_true h2.2⟩

theorem C150_stopped_fails : ¬ C150_stopped_statement := by
  intro h
  obtain ⟨s, _, h1, h2, h3, _⟩ := C150_early
  rw [h s h1 0 h2] at h3
  cases h3

/-- C150, a case of the part that holds: a data set is deleted and the next insert creates a new one. -/
theorem C150_example : ∃ s, Reach (fun s l => orderly s l = true) s ∧ Gone s 0 ∧ (s.objs 0).loops = 1 ∧ (s.objs 0).alive = false ∧
    s.entry = some (1, false) ∧ (s.objs 1).alive = true := by
  have h : (execIf orderly .new exOrderly).any (fun s => goneOf s 0 && decide ((s.objs 0).loops = 1 ∧ (s.objs 0).alive = false ∧
    s.entry = some (1, false) ∧ (s.objs 1).alive = true)) = true := by decide +kernel
  cases he : execIf orderly .new exOrderly with
  | none => simp [he] at h
  | some s =>
    rw [he] at h
    simp only [Option.any_some, Bool.and_eq_true] at h
    exact ⟨s, reach_execIf _ .new he, gone_of (execIf_exec _ he) (by decide +kernel) h.1, of_decide_eq_true h.2⟩

end Veri
