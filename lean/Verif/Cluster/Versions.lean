import Verif.Store.Props
import Verif.Process.Model
/-
C110: what the version of a value does.  C111: what becomes of the values of a key that several nodes hold.
-/
set_option autoImplicit false
namespace Veri
open Store hiding Label
open Gencoder

/-! ### C110 -/

/-- C110, the claim in full: after any history, an insert of an older version does not replace the stored value. -/
def C110_statement : Prop :=
  ∀ (ops : List Op) (m m' : DBMap) (now : Int64) (k : DatumKey) (v : DatumValue) (c : Option InsertConfig) (r : Ref.Rec),
    Steps [] ops m → abs m k = some r → v.version < r.value.version → Step m (.insert now k v c) m' [] →
    ∃ r', abs m' k = some r' ∧ r'.value = r.value

namespace Store

theorem steps_append {m m'' : DBMap} : ∀ {a b : List Op}, Steps m (a ++ b) m'' → ∃ m', Steps m a m' ∧ Steps m' b m''
  | [], _, h => ⟨m, .nil, h⟩
  | _ :: a, b, h => by
    cases h with
    | cons h1 h2 =>
      obtain ⟨m', h3, h4⟩ := steps_append (a := a) (b := b) h2
      exact ⟨m', .cons h1 h3, h4⟩

/-- What an insert leaves under its key. -/
theorem insert_value {r : Ref.RefMap} {now : Int64} {k : DatumKey} {v : DatumValue} {c : Option InsertConfig} :
    ∃ x, Ref.insert r now k v c k = some x ∧ x.value = v := by
  rw [ref_insert_self]
  cases h : r k with
  | none => exact ⟨_, rfl, rfl⟩
  | some old =>
    simp only
    split
    · rename_i h'; exact ⟨old, rfl, h'.1⟩
    · exact ⟨_, rfl, rfl⟩

/-- The values that a history inserts under a key, in order. -/
def inserted (k : DatumKey) : List Op → List DatumValue
  | [] => []
  | .insert _ k' v _ :: ops => if k' = k then v :: inserted k ops else inserted k ops
  | _ :: ops => inserted k ops

theorem inserted_append (k : DatumKey) : ∀ (a b : List Op), inserted k (a ++ b) = inserted k a ++ inserted k b
  | [], _ => rfl
  | .insert now k' v c :: a, b => by
    simp only [List.cons_append, inserted]
    split <;> simp [inserted_append k a b]
  | .delete _ _ :: a, b => by simp only [List.cons_append, inserted]; exact inserted_append k a b
  | .scan _ :: a, b => by simp only [List.cons_append, inserted]; exact inserted_append k a b

theorem refRun_last (k : DatumKey) : ∀ (ops : List Op) (r : Ref.RefMap) (x : Ref.Rec), refRun r ops k = some x →
    some x.value = (inserted k ops).getLast?.or ((r k).map (·.value))
  | [], r, x, h => by
    have h' : r k = some x := h
    simp [inserted, h']
  | op :: ops, r, x, h => by
    have ih := refRun_last k ops (refStep r op) x h
    cases hi : (inserted k ops).getLast? with
    | some v =>
      rw [hi] at ih
      have : (inserted k (op :: ops)).getLast? = some v := by
        have hne : inserted k ops ≠ [] := by intro e; rw [e] at hi; cases hi
        cases op with
        | insert now k' v' c =>
          simp only [inserted]
          split
          · rw [List.getLast?_cons, hi]; rfl
          · exact hi
        | delete k' v' => exact hi
        | scan clock => exact hi
      rw [this]
      exact ih
    | none =>
      have hn : inserted k ops = [] := List.getLast?_eq_none_iff.mp hi
      rw [hi] at ih
      simp only [Option.none_or] at ih
      cases hr : refStep r op k with
      | none => rw [hr] at ih; cases ih
      | some y =>
        rw [hr] at ih
        cases op with
        | insert now k' v' c =>
          by_cases hk : k' = k
          · subst hk
            obtain ⟨z, hz, hv⟩ := insert_value (r := r) (now := now) (k := k') (v := v') (c := c)
            have : y = z := by
              have : Ref.insert r now k' v' c k' = some y := hr
              rw [hz] at this; injection this with this; exact this.symm
            subst this
            simp only [inserted, if_true, hn, List.getLast?_singleton, Option.some_or]
            rw [ih, ← hv]
            rfl
          · have := refStep_not_inserts r (.insert now k' v' c) k hk y hr
            simp only [inserted, if_neg hk, hn, List.getLast?_nil, Option.none_or, this]
            exact ih
        | delete k' v' =>
          have := refStep_not_inserts r (.delete k' v') k id y hr
          simp only [inserted, hn, List.getLast?_nil, Option.none_or, this]
          exact ih
        | scan clock =>
          have := refStep_not_inserts r (.scan clock) k id y hr
          simp only [inserted, hn, List.getLast?_nil, Option.none_or, this]
          exact ih

end Store

/-- C110, exactly: whatever the versions, the stored value of a key is the one inserted last. -/
theorem C110_exact (ops : List Op) (m : DBMap) (h : Steps [] ops m) (k : DatumKey) (r : Ref.Rec) (hr : abs m k = some r) :
    (inserted k ops).getLast? = some r.value := by
  obtain ⟨_, ha⟩ := steps_sound h Store.wf_nil
  rw [ha] at hr
  have := refRun_last k ops _ r hr
  have he : abs [] k = none := rfl
  rw [he] at this
  simp only [Option.map_none, Option.or_none] at this
  exact this.symm

/-- C110: an insert always takes effect, whatever is stored and whatever the versions. -/
theorem C110_always_replaced (ops : List Op) (m m' : DBMap) (now : Int64) (k : DatumKey) (v : DatumValue) (c : Option InsertConfig)
    (h : Steps [] ops m) (hs : Step m (.insert now k v c) m' []) : ∃ r, abs m' k = some r ∧ r.value = v := by
  obtain ⟨hw, _⟩ := steps_sound h Store.wf_nil
  obtain ⟨_, ha⟩ := step_sound hw hs
  rw [ha]
  exact insert_value

/-- C110, the part that holds: if the versions of a key are inserted in ascending order, the stored one is the newest. -/
theorem C110_partial (ops : List Op) (m : DBMap) (h : Steps [] ops m) (k : DatumKey) (r : Ref.Rec) (hr : abs m k = some r)
    (ho : (inserted k ops).Pairwise fun a b => a.version ≤ b.version) : ∀ v ∈ inserted k ops, v.version ≤ r.value.version := by
  have hl := C110_exact ops m h k r hr
  intro v hv
  obtain ⟨l, hl'⟩ := List.getLast?_eq_some_iff.mp hl
  rw [hl'] at ho hv
  rcases List.mem_append.mp hv with hv | hv
  · exact (List.pairwise_append.mp ho).2.2 v hv _ (List.mem_singleton.mpr rfl)
  · rw [List.mem_singleton.mp hv]; exact UInt64.le_refl _

namespace Store
/-- A history that inserts version 7 and then version 3. -/
def exBack : List Op := [.insert 1000 (exKey 1) (exVal 7) none, .insert 1001 (exKey 1) (exVal 3) none]
end Store

/-- C110, an instance: both inserts are carried out, and version 3 is stored. -/
example : ∃ m, Steps [] exBack m ∧ inserted (exKey 1) exBack = [exVal 7, exVal 3] ∧
    ∃ r, abs m (exKey 1) = some r ∧ r.value = exVal 3 := by
  obtain ⟨m, b, h1, hw, ha, _⟩ := insertBDMap_spec Store.wf_nil 1000 (exKey 1) (exVal 7) none
  obtain ⟨m', b', h2, hw', ha', _⟩ := insertBDMap_spec hw 1001 (exKey 1) (exVal 3) none
  exact ⟨m', .cons (.insert h1) (.cons (.insert h2) .nil), by decide, C110_always_replaced _ m m' 1001 _ _ none
    (.cons (.insert h1) .nil) (.insert h2)⟩

/-- C110 fails: version 3 replaces version 7. -/
theorem C110_fails : ¬ C110_statement := by
  intro h
  obtain ⟨m, b, h1, hw, ha, _⟩ := insertBDMap_spec Store.wf_nil 1000 (exKey 1) (exVal 7) none
  obtain ⟨m', b', h2, hw', ha', _⟩ := insertBDMap_spec hw 1001 (exKey 1) (exVal 3) none
  have hs : Steps [] [.insert 1000 (exKey 1) (exVal 7) none] m := .cons (.insert h1) .nil
  obtain ⟨r, hr, hv⟩ := insert_value (r := abs []) (now := 1000) (k := exKey 1) (v := exVal 7) (c := none)
  obtain ⟨r', hr', hv'⟩ := h _ m m' 1001 (exKey 1) (exVal 3) none r hs (by rw [ha]; exact hr)
    (by rw [hv]; decide) (.insert h2)
  obtain ⟨r2, hr2, hv2⟩ := insert_value (r := abs m) (now := 1001) (k := exKey 1) (v := exVal 3) (c := none)
  rw [ha', hr2] at hr'
  injection hr' with hr'
  subst hr'
  rw [hv2, hv] at hv'
  exact absurd hv' (by decide)

/-! ### C111 -/

namespace Rep

/-- A datum on its way to node `dst`, with the configuration of the insert. -/
structure Msg where
  dst : Nat
  key : DatumKey
  value : DatumValue
  config : InsertConfig
  deriving DecidableEq, Repr

/-- The maps of the nodes for one data set, and the inserts on their way.  `got` records which inserts have arrived. -/
structure St where
  stores : List DBMap
  flight : List Msg
  got : List (Nat × DatumKey)
  deriving DecidableEq, Repr

inductive Label where
  /-- a client inserts at node `i`, which passes the datum on to the nodes `dsts` (data/insert.go:26-47); every node has its
  own clock -/
  | client (i : Nat) (now : Int64) (k : DatumKey) (v : DatumValue) (config : InsertConfig) (dsts : List Nat)
  /-- maintenance of node `i` sends the entry under `b` to node `j` (data/newsync.go:183-191, 111-132) -/
  | send (i j : Nat) (now : Int64) (b : Bytes)
  /-- the `n`-th insert on its way arrives and is accepted -/
  | deliver (n : Nat) (now : Int64)
  /-- it is lost, or refused -/
  | lose (n : Nat)
  /-- node `i` drops the entry under `b`: it has expired, was deleted or evicted -/
  | drop (i : Nat) (b : Bytes)

/-- `InsertBDMap`. -/
def put (now : Int64) (m : DBMap) (k : DatumKey) (v : DatumValue) (c : InsertConfig) : Option DBMap :=
  match insertBDMap now m (some ⟨some k, some v⟩) (some c) with
  | .ok (m', _) => some m'
  | _ => none

/-- The nodes of a cluster at work on one data set.  Whether a datum is sent, to whom, and whether it is accepted is decided
elsewhere (C45, C15, C20); here everything that is possible is a step.  Forwarded inserts have count 1 and are not passed on
again (C19). -/
def step (s : St) : Label → Option St
  | .client i now k v c dsts =>
    match s.stores[i]? with
    | none => none
    | some m => (put now m k v c).map fun m' =>
      { s with stores := s.stores.set i m', flight := s.flight ++ dsts.map fun j => ⟨j, k, v, { c with count := 1 }⟩ }
  | .send i j now b =>
    match (s.stores[i]?).bind fun m => m.get? b with
    | some ⟨x, ⟨some k, some v⟩⟩ =>
      if (Proc.insertConfigFromExpireAt now.toUInt64 x.toUInt64).ttl > 10 then
        some { s with flight := s.flight ++ [⟨j, k, v, Proc.insertConfigFromExpireAt now.toUInt64 x.toUInt64⟩] }
      else none
    | _ => none
  | .deliver n now =>
    match s.flight[n]? with
    | none => none
    | some q =>
      match s.stores[q.dst]? with
      | none => none
      | some m => (put now m q.key q.value q.config).map fun m' =>
        ⟨s.stores.set q.dst m', s.flight.eraseIdx n, (q.dst, q.key) :: s.got⟩
  | .lose n => if n < s.flight.length then some { s with flight := s.flight.eraseIdx n } else none
  | .drop i b =>
    match s.stores[i]? with
    | none => none
    | some m => some { s with stores := s.stores.set i (m.erase b) }

def run (s : St) : List Label → Option St
  | [] => some s
  | l :: ls => (step s l).bind fun s => run s ls

/-- A cluster of `n` nodes that hold nothing. -/
def start (n : Nat) : St := ⟨List.replicate n [], [], []⟩

/-- The value that node `i` has for `k`. -/
def value (s : St) (i : Nat) (k : DatumKey) : Option DatumValue := (s.stores[i]?).bind fun m => (abs m k).map (·.value)

/-- Two nodes that have a value for `k` have the same. -/
def Agree (s : St) (k : DatumKey) : Prop := ∀ i j v w, value s i k = some v → value s j k = some w → v = w

/-- The step inserts, for a client, under key `k`. -/
def Label.writes (k : DatumKey) : Label → Prop
  | .client _ _ k' _ _ _ => k' = k
  | _ => False

/-- The number of times that node `i` sends the datum with key `k` to node `j`. -/
def sends (k : DatumKey) (i j : Nat) : List Label → Nat
  | [] => 0
  | .send i' j' _ b :: ls => sends k i j ls + if i' = i ∧ j' = j ∧ b = encKey k then 1 else 0
  | _ :: ls => sends k i j ls

def WFS (s : St) : Prop := ∀ m ∈ s.stores, Store.WF m

theorem wfs_start (n : Nat) : WFS (start n) := by
  intro m hm
  rw [(List.mem_replicate.mp hm).2]
  exact Store.wf_nil

theorem put_spec {now : Int64} {m m' : DBMap} {k : DatumKey} {v : DatumValue} {c : InsertConfig} (hw : Store.WF m)
    (h : put now m k v c = some m') : Store.WF m' ∧ (abs m' k).map (·.value) = some v ∧ ∀ k', k' ≠ k → abs m' k' = abs m k' := by
  obtain ⟨m1, b, h1, hw1, ha, _⟩ := insertBDMap_spec hw now k v (some c)
  unfold put at h
  rw [h1] at h
  injection h with h
  subst h
  refine ⟨hw1, ?_, fun k' hk => by rw [ha]; exact ref_insert_ne _ _ _ _ _ _ hk⟩
  obtain ⟨x, hx, hv⟩ := insert_value (r := abs m) (now := now) (k := k) (v := v) (c := some c)
  rw [ha, hx]
  exact congrArg some hv

theorem erase_spec {m : DBMap} (hw : Store.WF m) (b : Bytes) (k : DatumKey) :
    abs (m.erase b) k = if b = encKey k then none else abs m k := by
  by_cases h : b = encKey k
  · rw [if_pos h]; subst h; unfold abs; rw [AMap.get?_erase_self]
  · rw [if_neg h]; unfold abs; rw [AMap.get?_erase_ne _ h]

theorem wfs_set {s : St} (h : WFS s) {i : Nat} {m : DBMap} (hm : Store.WF m) (f : List Msg) (g : List (Nat × DatumKey)) :
    WFS ⟨s.stores.set i m, f, g⟩ := by
  intro x hx
  rcases List.mem_or_eq_of_mem_set hx with hx | hx
  · exact h x hx
  · rw [hx]; exact hm

theorem value_set {s : St} {i : Nat} {m m0 : DBMap} (h0 : s.stores[i]? = some m0) (f : List Msg) (g : List (Nat × DatumKey))
    (j : Nat) (k : DatumKey) :
    value ⟨s.stores.set i m, f, g⟩ j k = if i = j then (abs m k).map (·.value) else value s j k := by
  unfold value
  have hlt : i < s.stores.length := by
    rw [List.getElem?_eq_some_iff] at h0; exact h0.1
  simp only [List.getElem?_set]
  split
  · rename_i e; subst e; simp [hlt]
  · rfl

theorem value_of {s : St} {i : Nat} {m : DBMap} (h : s.stores[i]? = some m) (k : DatumKey) :
    value s i k = (abs m k).map (·.value) := by
  unfold value; rw [h]; rfl

/-- What a step does to the values of a key and to the inserts of it that are on their way. -/
inductive Effect (k : DatumKey) (s s' : St) : Label → Prop
  | client {i now v c dsts} (old : i < s.stores.length)
      (stored : ∀ j, value s' j k = if i = j then some v else value s j k)
      (sent : ∀ q ∈ s'.flight, q ∈ s.flight ∨ (q.key = k ∧ q.value = v)) (got : s'.got = s.got) :
      Effect k s s' (.client i now k v c dsts)
  | send {i j now} (v : DatumValue) (has : value s i k = some v) (stored : ∀ j, value s' j k = value s j k)
      (sent : ∀ q ∈ s'.flight, q ∈ s.flight ∨ (q.dst = j ∧ q.key = k ∧ q.value = v)) (got : s'.got = s.got) :
      Effect k s s' (.send i j now (encKey k))
  | deliver {n now} (q : Msg) (key : q.key = k) (was : q ∈ s.flight)
      (stored : ∀ j, value s' j k = if q.dst = j then some q.value else value s j k)
      (sent : ∀ q ∈ s'.flight, q ∈ s.flight) (got : s'.got = (q.dst, k) :: s.got) : Effect k s s' (.deliver n now)
  | drop {i} (stored : ∀ j, value s' j k = if i = j then none else value s j k) (sent : s'.flight = s.flight)
      (got : s'.got = s.got) : Effect k s s' (.drop i (encKey k))
  | other {l} (not : ¬ l.writes k) (stored : ∀ j, value s' j k = value s j k)
      (sent : ∀ q ∈ s'.flight, q.key = k → q ∈ s.flight) (got : ∀ j, (j, k) ∈ s'.got → (j, k) ∈ s.got) : Effect k s s' l

theorem step_effect (k : DatumKey) {s s' : St} {l : Label} (hw : WFS s) (h : step s l = some s') : WFS s' ∧ Effect k s s' l := by
  cases l with
  | client i now k' v c dsts =>
    simp only [step] at h
    cases hi : s.stores[i]? with
    | none => rw [hi] at h; cases h
    | some m =>
      rw [hi] at h
      simp only at h
      cases hp : put now m k' v c with
      | none => rw [hp] at h; cases h
      | some m' =>
        rw [hp] at h
        simp only [Option.map_some] at h
        injection h with h
        subst h
        obtain ⟨hw', hv, ho⟩ := put_spec (hw m (List.mem_of_getElem? hi)) hp
        refine ⟨wfs_set hw hw' _ _, ?_⟩
        by_cases hk : k' = k
        · subst hk
          refine .client (List.getElem?_eq_some_iff.mp hi).1 (fun j => ?_) ?_ rfl
          · rw [value_set hi]; split
            · exact hv
            · rfl
          · intro q hq
            rcases List.mem_append.mp hq with hq | hq
            · exact Or.inl hq
            · obtain ⟨j, _, rfl⟩ := List.mem_map.mp hq
              exact Or.inr ⟨rfl, rfl⟩
        · refine .other hk (fun j => ?_) ?_ (fun _ h => h)
          · rw [value_set hi]; split
            · rename_i e; subst e; rw [ho k (Ne.symm hk), value_of hi]
            · rfl
          · intro q hq hqk
            rcases List.mem_append.mp hq with hq | hq
            · exact hq
            · obtain ⟨j, _, rfl⟩ := List.mem_map.mp hq
              exact absurd hqk hk
  | send i j now b =>
    simp only [step] at h
    cases hi : s.stores[i]? with
    | none => rw [hi] at h; cases h
    | some m =>
      rw [hi] at h
      simp only [Option.bind_some] at h
      split at h
      · rename_i x k' v hg
        split at h
        · injection h with h
          subst h
          refine ⟨hw, ?_⟩
          have hwm := hw m (List.mem_of_getElem? hi)
          obtain ⟨k1, hk1, hb⟩ := hwm.keyed _ _ (AMap.mem_of_get? hg)
          simp only [Option.some.injEq] at hk1
          subst hk1
          by_cases hk : k' = k
          · subst hk
            subst hb
            refine .send v ?_ (fun _ => rfl) ?_ rfl
            · rw [value_of hi, (abs_some_iff hwm k' v x).2 hg]; rfl
            · intro q hq
              rcases List.mem_append.mp hq with hq | hq
              · exact Or.inl hq
              · rw [List.mem_singleton.mp hq]; exact Or.inr ⟨rfl, rfl, rfl⟩
          · refine .other id (fun _ => rfl) ?_ (fun _ h => h)
            intro q hq hqk
            rcases List.mem_append.mp hq with hq | hq
            · exact hq
            · rw [List.mem_singleton.mp hq] at hqk; exact absurd hqk hk
        · cases h
      · cases h
  | deliver n now =>
    simp only [step] at h
    cases hq : s.flight[n]? with
    | none => rw [hq] at h; cases h
    | some q =>
      rw [hq] at h
      simp only at h
      cases hi : s.stores[q.dst]? with
      | none => rw [hi] at h; cases h
      | some m =>
        rw [hi] at h
        simp only at h
        cases hp : put now m q.key q.value q.config with
        | none => rw [hp] at h; cases h
        | some m' =>
          rw [hp] at h
          simp only [Option.map_some] at h
          injection h with h
          subst h
          obtain ⟨hw', hv, ho⟩ := put_spec (hw m (List.mem_of_getElem? hi)) hp
          refine ⟨wfs_set hw hw' _ _, ?_⟩
          by_cases hk : q.key = k
          · refine .deliver q hk (List.mem_of_getElem? hq) (fun j => ?_) (fun q hq => List.mem_of_mem_eraseIdx hq) (by rw [hk])
            rw [value_set hi]; split
            · rw [← hk]; exact hv
            · rfl
          · refine .other id (fun j => ?_) (fun q hq _ => List.mem_of_mem_eraseIdx hq) ?_
            · rw [value_set hi]; split
              · rename_i e; rw [ho k (Ne.symm hk), ← e, value_of hi]
              · rfl
            · intro j hj
              rcases List.mem_cons.mp hj with hj | hj
              · injection hj with _ hj; exact absurd hj.symm hk
              · exact hj
  | lose n =>
    simp only [step] at h
    split at h
    · injection h with h
      subst h
      exact ⟨hw, .other id (fun _ => rfl) (fun q hq _ => List.mem_of_mem_eraseIdx hq) (fun _ h => h)⟩
    · cases h
  | drop i b =>
    simp only [step] at h
    cases hi : s.stores[i]? with
    | none => rw [hi] at h; cases h
    | some m =>
      rw [hi] at h
      injection h with h
      subst h
      have hwm := hw m (List.mem_of_getElem? hi)
      refine ⟨wfs_set hw (Store.wf_erase hwm b) _ _, ?_⟩
      by_cases hb : b = encKey k
      · subst hb
        refine .drop (fun j => ?_) rfl rfl
        rw [value_set hi, erase_spec hwm, if_pos rfl]
        rfl
      · refine .other id (fun j => ?_) (fun q hq _ => hq) (fun _ h => h)
        rw [value_set hi, erase_spec hwm, if_neg hb]
        split
        · rename_i e; subst e; rw [value_of hi]
        · rfl

/-- The values that clients insert under a key. -/
def written (k : DatumKey) : List Label → List DatumValue
  | [] => []
  | .client _ _ k' v _ _ :: ls => if k' = k then v :: written k ls else written k ls
  | _ :: ls => written k ls

theorem written_not (k : DatumKey) {l : Label} (ls : List Label) (h : ¬ l.writes k) : written k (l :: ls) = written k ls := by
  cases l with
  | client i now k' v c dsts => simp only [written, if_neg (show ¬ k' = k from h)]
  | _ => rfl

/-- Everything about `k` in the state has a value with property `Q`. -/
def Only (Q : DatumValue → Prop) (k : DatumKey) (s : St) : Prop :=
  (∀ j v, value s j k = some v → Q v) ∧ ∀ q ∈ s.flight, q.key = k → Q q.value

theorem only_run (Q : DatumValue → Prop) (k : DatumKey) : ∀ (ls : List Label) (s s' : St), WFS s → Only Q k s →
    (∀ v ∈ written k ls, Q v) → run s ls = some s' → WFS s' ∧ Only Q k s'
  | [], s, s', hw, ho, _, h => by unfold run at h; injection h with h; subst h; exact ⟨hw, ho⟩
  | l :: ls, s, s', hw, ho, hQ, h => by
    unfold run at h
    cases h1 : step s l with
    | none => rw [h1] at h; cases h
    | some s1 =>
      rw [h1] at h
      obtain ⟨hw1, he⟩ := step_effect k hw h1
      have hsub : ∀ v ∈ written k ls, Q v := by
        intro v hv
        apply hQ
        cases l with
        | client i now k' v' c dsts =>
          simp only [written]
          split
          · exact List.mem_cons_of_mem _ hv
          · exact hv
        | _ => exact hv
      refine only_run Q k ls s1 s' hw1 ?_ hsub h
      cases he with
      | @client i now v c dsts old stored sent got =>
        have hv : Q v := hQ v (by simp [written])
        refine ⟨fun j w hj => ?_, fun q hq hk => ?_⟩
        · rw [stored] at hj
          split at hj
          · injection hj with hj; subst hj; exact hv
          · exact ho.1 j w hj
        · rcases sent q hq with h' | ⟨_, h'⟩
          · exact ho.2 q h' hk
          · rw [h']; exact hv
      | @send i j now v has stored sent got =>
        refine ⟨fun j w hj => ho.1 j w (by rw [← stored]; exact hj), fun q hq hk => ?_⟩
        rcases sent q hq with h' | ⟨_, _, h'⟩
        · exact ho.2 q h' hk
        · rw [h']; exact ho.1 _ _ has
      | @deliver n now q key was stored sent got =>
        refine ⟨fun j w hj => ?_, fun q hq hk => ho.2 q (sent q hq) hk⟩
        rw [stored] at hj
        split at hj
        · injection hj with hj; subst hj; exact ho.2 q was key
        · exact ho.1 j w hj
      | drop stored sent got =>
        refine ⟨fun j w hj => ?_, fun q hq hk => ho.2 q (by rw [← sent]; exact hq) hk⟩
        rw [stored] at hj
        split at hj
        · cases hj
        · exact ho.1 j w hj
      | other not stored sent got =>
        exact ⟨fun j w hj => ho.1 j w (by rw [← stored]; exact hj), fun q hq hk => ho.2 q (sent q hq hk) hk⟩

theorem only_start (Q : DatumValue → Prop) (k : DatumKey) (n : Nat) : Only Q k (start n) := by
  refine ⟨fun j v hj => ?_, fun q hq => absurd hq List.not_mem_nil⟩
  unfold value start at hj
  cases hg : (List.replicate n ([] : DBMap))[j]? with
  | none => simp only [hg] at hj; cases hj
  | some m =>
    simp only [hg] at hj
    have := List.mem_of_getElem? hg
    rw [(List.mem_replicate.mp this).2] at hj
    cases hj

/-- Node `i` is the only one that sends `k`, nobody drops `k`, no client inserts it. -/
def OneSource (k : DatumKey) (i : Nat) : Label → Prop
  | .client _ _ k' _ _ _ => k' ≠ k
  | .send i' _ _ b => b = encKey k → i' = i
  | .drop _ b => b ≠ encKey k
  | _ => True

/-- Node `i` has `v`, only `v` is on its way, and whoever got `k` has `v`. -/
structure Src (k : DatumKey) (i : Nat) (v : DatumValue) (s : St) : Prop where
  has : value s i k = some v
  flight : ∀ q ∈ s.flight, q.key = k → q.value = v
  got : ∀ j, (j, k) ∈ s.got → value s j k = some v

theorem src_run (k : DatumKey) (i : Nat) (v : DatumValue) : ∀ (ls : List Label) (s s' : St), WFS s → Src k i v s →
    (∀ l ∈ ls, OneSource k i l) → run s ls = some s' → Src k i v s'
  | [], s, s', _, hs, _, h => by unfold run at h; injection h with h; subst h; exact hs
  | l :: ls, s, s', hw, hs, hl, h => by
    unfold run at h
    cases h1 : step s l with
    | none => rw [h1] at h; cases h
    | some s1 =>
      rw [h1] at h
      obtain ⟨hw1, he⟩ := step_effect k hw h1
      refine src_run k i v ls s1 s' hw1 ?_ (fun l hl' => hl l (List.mem_cons_of_mem _ hl')) h
      have hone := hl l List.mem_cons_self
      cases he with
      | client old stored sent got => exact absurd rfl hone
      | @send i' j now w has stored sent got =>
        have hi : i' = i := hone rfl
        subst hi
        have hw' : w = v := by rw [hs.has] at has; injection has with has; exact has.symm
        subst hw'
        refine ⟨by rw [stored]; exact hs.has, fun q hq hk => ?_, fun j hj => by rw [stored]; exact hs.got j (by rw [← got]; exact hj)⟩
        rcases sent q hq with h' | ⟨_, _, h'⟩
        · exact hs.flight q h' hk
        · exact h'
      | @deliver n now q key was stored sent got =>
        have hv : q.value = v := hs.flight q was key
        refine ⟨?_, fun q hq hk => hs.flight q (sent q hq) hk, fun j hj => ?_⟩
        · rw [stored, hv, hs.has]; exact ite_self _
        · rw [stored, hv]
          split
          · rfl
          · rename_i hne
            rw [got] at hj
            rcases List.mem_cons.mp hj with hj | hj
            · injection hj with hj _; exact absurd hj.symm hne
            · exact hs.got j hj
      | drop stored sent got => exact absurd rfl hone
      | other not stored sent got =>
        exact ⟨by rw [stored]; exact hs.has, fun q hq hk => hs.flight q (sent q hq hk) hk,
          fun j hj => by rw [stored]; exact hs.got j (got j hj)⟩

end Rep
open Rep

/-- C111, the claim in full: when clients no longer insert under a key, some number of exchanges of it between any two nodes
is enough for the nodes that have it to agree, once nothing is on its way. -/
def C111_statement : Prop :=
  ∀ (n : Nat) (k : DatumKey) (pre : List Label) (s : St), run (start n) pre = some s →
    ∃ N : Nat, ∀ (ls : List Label) (s' : St), run s ls = some s' → (∀ l ∈ ls, ¬ l.writes k) →
      (∀ i j, i < n → j < n → i ≠ j → N ≤ sends k i j ls) → s'.flight = [] → Agree s' k

/-- C111: whatever the nodes exchange, a value that a node has for a key was inserted under that key by a client. -/
theorem C111_no_invention (n : Nat) (k : DatumKey) (ls : List Label) (s : St) (h : run (start n) ls = some s) (i : Nat)
    (v : DatumValue) (hv : value s i k = some v) : v ∈ written k ls :=
  (only_run (· ∈ written k ls) k ls _ _ (wfs_start n) (only_start _ k n) (fun _ h => h) h).2.1 i v hv

/-- C111, the part that holds: if clients never change the value of a key, the nodes that have it agree at all times. -/
theorem C111_one_value_partial (n : Nat) (k : DatumKey) (ls : List Label) (s : St) (h : run (start n) ls = some s)
    (v : DatumValue) (hv : ∀ w ∈ written k ls, w = v) : Agree s k := by
  intro i j a b ha hb
  rw [hv a (C111_no_invention n k ls s h i a ha), hv b (C111_no_invention n k ls s h j b hb)]

/-- C111, the part that holds: if from some moment on, with no insert of the key on its way, one node is the only one that
sends it, nobody drops it and no client inserts it, then every node that it reaches has the value of that node. -/
theorem C111_one_source_partial (n : Nat) (k : DatumKey) (pre ls : List Label) (s s' : St) (hp : run (start n) pre = some s)
    (i : Nat) (v : DatumValue) (hv : value s i k = some v) (hf : ∀ q ∈ s.flight, q.key ≠ k)
    (hl : ∀ l ∈ ls, OneSource k i l) (h : run { s with got := [] } ls = some s') :
    value s' i k = some v ∧ ∀ j, (j, k) ∈ s'.got → value s' j k = some v := by
  have hw : WFS s := (only_run (fun _ => True) k pre _ _ (wfs_start n) (only_start _ k n) (fun _ _ => trivial) hp).1
  have := src_run k i v ls { s with got := [] } s' hw
    ⟨hv, fun q hq hk => absurd hk (hf q hq), fun j hj => absurd hj List.not_mem_nil⟩ hl h
  exact ⟨this.has, this.got⟩

namespace Rep

/-- Two clients insert different values at two nodes. -/
def exPre : List Label := [.client 0 1000 (exKey 1) (exVal 1) ⟨600, 1⟩ [], .client 1 1000 (exKey 1) (exVal 2) ⟨600, 1⟩ []]

/-- The two nodes, with values `a` and `b`. -/
def exAB (a b : UInt64) (g : List (Nat × DatumKey)) : St :=
  ⟨[[(encKey (exKey 1), ⟨1600, ⟨some (exKey 1), some (exVal a)⟩⟩)], [(encKey (exKey 1), ⟨1600, ⟨some (exKey 1), some (exVal b)⟩⟩)]], [], g⟩

/-- Each node sends its datum to the other, then both arrive. -/
def exSwap : List Label :=
  [.send 0 1 1001 (encKey (exKey 1)), .send 1 0 1001 (encKey (exKey 1)), .deliver 0 1001, .deliver 0 1001]

/-- What has arrived so far plays no part. -/
theorem step_got (st : List DBMap) (f : List Msg) (g0 g : List (Nat × DatumKey)) (l : Label) :
    step ⟨st, f, g0 ++ g⟩ l = (step ⟨st, f, g0⟩ l).map fun s => ⟨s.stores, s.flight, s.got ++ g⟩ := by
  cases l with
  | client i now k v c dsts =>
    simp only [step]
    cases st[i]? with
    | none => rfl
    | some m => cases hp : put now m k v c <;> simp [hp]
  | send i j now b =>
    simp only [step]
    split
    · split <;> rfl
    · rfl
  | deliver n now =>
    simp only [step]
    cases f[n]? with
    | none => rfl
    | some q =>
      simp only
      cases st[q.dst]? with
      | none => rfl
      | some m => cases hp : put now m q.key q.value q.config <;> simp [hp]
  | lose n => simp only [step]; split <;> rfl
  | drop i b =>
    simp only [step]
    cases st[i]? <;> rfl

theorem run_got (g : List (Nat × DatumKey)) : ∀ (ls : List Label) (st : List DBMap) (f : List Msg) (g0 : List (Nat × DatumKey)),
    run ⟨st, f, g0 ++ g⟩ ls = (run ⟨st, f, g0⟩ ls).map fun s => ⟨s.stores, s.flight, s.got ++ g⟩
  | [], _, _, _ => rfl
  | l :: ls, st, f, g0 => by
    unfold run
    rw [step_got]
    cases h : step ⟨st, f, g0⟩ l with
    | none => rfl
    | some s => exact run_got g ls s.stores s.flight s.got

theorem exSwap_run (a b : UInt64) (g : List (Nat × DatumKey)) (hab : a = 1 ∧ b = 2 ∨ a = 2 ∧ b = 1) :
    run (exAB a b g) exSwap = some (exAB b a ((0, exKey 1) :: (1, exKey 1) :: g)) := by
  have key : run (exAB a b []) exSwap = some (exAB b a [(0, exKey 1), (1, exKey 1)]) := by
    rcases hab with ⟨rfl, rfl⟩ | ⟨rfl, rfl⟩ <;> decide +kernel
  have := run_got g exSwap (exAB a b []).stores [] []
  exact this.trans (by rw [show (⟨(exAB a b []).stores, [], []⟩ : St) = exAB a b [] from rfl, key]; rfl)

theorem run_append (a : List Label) : ∀ (s s' : St) (b : List Label), run s a = some s' → run s (a ++ b) = run s' b := by
  induction a with
  | nil => intro s s' b h; unfold run at h; injection h with h; subst h; rfl
  | cons l a ih =>
    intro s s' b h
    unfold run at h
    cases h1 : step s l with
    | none => rw [h1] at h; cases h
    | some s1 =>
      rw [h1] at h
      show (step s l).bind _ = _
      rw [h1]
      exact ih s1 s' b h

/-- `N` exchanges. -/
def exSwaps (N : Nat) : List Label := (List.replicate N exSwap).flatten

theorem exSwaps_succ (N : Nat) : exSwaps (N + 1) = exSwap ++ exSwaps N := rfl

theorem exSwaps_run : ∀ (N : Nat) (a b : UInt64) (g : List (Nat × DatumKey)), (a = 1 ∧ b = 2 ∨ a = 2 ∧ b = 1) →
    ∃ a' b' g', (a' = 1 ∧ b' = 2 ∨ a' = 2 ∧ b' = 1) ∧ run (exAB a b g) (exSwaps N) = some (exAB a' b' g')
  | 0, a, b, g, h => ⟨a, b, g, h, rfl⟩
  | N + 1, a, b, g, h => by
    rw [exSwaps_succ, run_append exSwap _ _ _ (exSwap_run a b g h)]
    exact exSwaps_run N b a _ (by rcases h with h | h <;> simp [h])

theorem sends_swap (k : DatumKey) (i j : Nat) (ls : List Label) : sends k i j (exSwap ++ ls) = sends k i j exSwap + sends k i j ls := by
  simp only [exSwap, List.cons_append, List.nil_append, sends]
  omega

theorem sends_swaps (i j : Nat) (hi : i < 2) (hj : j < 2) (hij : i ≠ j) : ∀ N, sends (exKey 1) i j (exSwaps N) = N
  | 0 => rfl
  | N + 1 => by
    have h1 : sends (exKey 1) i j exSwap = 1 := by
      have : i = 0 ∧ j = 1 ∨ i = 1 ∧ j = 0 := by omega
      rcases this with ⟨rfl, rfl⟩ | ⟨rfl, rfl⟩ <;> decide +kernel
    rw [exSwaps_succ, sends_swap, sends_swaps i j hi hj hij N, h1]
    omega

theorem exSwaps_quiet (N : Nat) (k : DatumKey) : ∀ l ∈ exSwaps N, ¬ l.writes k := by
  intro l hl
  obtain ⟨x, hx, hl⟩ := List.mem_flatten.mp hl
  rw [(List.mem_replicate.mp hx).2] at hl
  simp only [exSwap, List.mem_cons, List.not_mem_nil, or_false] at hl
  rcases hl with rfl | rfl | rfl | rfl <;> exact id

end Rep

/-- C111 fails: two nodes with different values swap them, and no number of exchanges changes that. -/
theorem C111_never (N : Nat) : ∃ s ls s', run (start 2) exPre = some s ∧ run s ls = some s' ∧ (∀ l ∈ ls, ¬ l.writes (exKey 1)) ∧
    (∀ i j, i < 2 → j < 2 → i ≠ j → sends (exKey 1) i j ls = N) ∧ s'.flight = [] ∧ ¬ Agree s' (exKey 1) := by
  obtain ⟨a, b, g, hab, hr⟩ := exSwaps_run N 1 2 [] (Or.inl ⟨rfl, rfl⟩)
  refine ⟨exAB 1 2 [], exSwaps N, _, by decide +kernel, hr, exSwaps_quiet N _, fun i j hi hj hij => sends_swaps i j hi hj hij N, rfl, ?_⟩
  intro h
  have e : ∀ i, value (exAB a b g) i (exKey 1) = value (exAB a b []) i (exKey 1) := fun _ => rfl
  have := h 0 1 (exVal a) (exVal b) (by rw [e]; rcases hab with ⟨rfl, rfl⟩ | ⟨rfl, rfl⟩ <;> decide +kernel)
    (by rw [e]; rcases hab with ⟨rfl, rfl⟩ | ⟨rfl, rfl⟩ <;> decide +kernel)
  rcases hab with ⟨rfl, rfl⟩ | ⟨rfl, rfl⟩ <;> exact absurd this (by decide)

theorem C111_fails : ¬ C111_statement := by
  intro h
  obtain ⟨s, _, _, hs, _⟩ := C111_never 0
  obtain ⟨N, hN⟩ := h 2 (exKey 1) exPre s hs
  obtain ⟨s1, ls, s', hs1, hr, hq, hn, hf, ha⟩ := C111_never N
  rw [hs] at hs1
  injection hs1 with hs1
  subst hs1
  exact ha (hN ls s' hr hq (fun i j hi hj hij => by rw [hn i j hi hj hij]; exact Nat.le_refl _) hf)

/-- C111, an instance of one source: node 0 sends, node 1 takes its value. -/
example : ∃ s s', run (start 2) exPre = some s ∧
    run { s with got := [] } [.send 0 1 1001 (encKey (exKey 1)), .deliver 0 1001] = some s' ∧
    (1, exKey 1) ∈ s'.got ∧ value s 1 (exKey 1) = some (exVal 2) ∧ value s' 1 (exKey 1) = some (exVal 1) :=
  ⟨exAB 1 2 [], exAB 1 1 [(1, exKey 1)], by decide +kernel, by decide +kernel, by decide, by decide +kernel, by decide +kernel⟩

end Veri
