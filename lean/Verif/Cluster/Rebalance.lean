import Verif.Process.Props
/-
C158: maintenance on several nodes at the same time does not remove the last copy of a datum.
-/
set_option autoImplicit false
namespace Veri
open Gencoder Proc
open Store hiding Label

/-! ### Several nodes -/

namespace Bal

/-- A transfer that the receiving node has carried out, and whose answer has not come back: run `run` of node `src`, source `id`. -/
structure Call where
  src : Nat
  run : Nat
  dst : Nat
  id : SourceId
  item : Item
  deriving DecidableEq, Repr

/-- The nodes that have the data set, each with its runs of `Process` and its own clock, and the calls between them. -/
structure St where
  nodes : List PS
  calls : List Call
  deriving DecidableEq, Repr

inductive Label where
  /-- a step of node `i` alone, an insert or delete of a client among them; a transfer that is refused or fails, or whose answer is lost, is
  `.act j (.contact false)` -/
  | node (i : Nat) (l : Proc.Label)
  /-- data/newsync.go:116-118: the transfer that run `n` of node `i` has come to is carried out by the receiving node -/
  | arrive (i n : Nat)
  /-- data/newsync.go:119-131: the answer comes back -/
  | answer (i n : Nat)

/-- What the consumer of a run on a data set is about to send, and to whom: data/newsync.go:113-118. -/
def pending (now : Int64) (dt : Data) (i : Inst) : Option (SourceId × Item) :=
  match i.consumer with
  | some c =>
    match c.cur with
    | some (x, (id, count) :: _) =>
      if (c.countMap.get? id).getD 0 < count && liveSource now (dt.sources.getD []) id then some (id, x) else none
    | _ => none
  | none => none

/-- data/newsync.go:122-131: after a transfer that was accepted. -/
def settle (P : PEnv) (ps : PS) (n : Nat) (call : Call) : Option PS :=
  match ps.insts[n]? with
  | none => none
  | some i =>
    match i.consumer with
    | none => none
    | some c =>
      let c := { c with cur := c.cur.map fun p => (p.1, p.2.tail) }
      let acks := ps.acks ++ [⟨call.id, call.item⟩]
      if !ps.dt.alive || isEvictionOn P i.localInfo i.config c.deleted then
        match getKeyAsBytes call.item.datum with
        | none => none
        | some k => some { ps with
            dt := { ps.dt with dbMap := ps.dt.dbMap.erase k }
            acks := acks
            insts := ps.insts.set n { i with
              consumer := some { c with
                countMap := c.countMap.set call.id ((c.countMap.get? call.id).getD 0 + 1)
                deleted := c.deleted + 1 }
              evicted := i.evicted ++ [k] } }
      else some { ps with acks := acks, insts := ps.insts.set n { i with consumer := some c } }

/-- Data/Process with the source replaced by another node.  `dial` says which node a source is; a node is not its own source (C61).
Simplification: an insert and the maintenance of the receiving node do not interleave within the insert (C125, C16). -/
def step (P : PEnv) (dial : SourceId → Option Nat) (s : St) : Label → Option St
  | .node i l =>
    match s.nodes[i]? with
    | none => none
    | some ps =>
      match l with
      | .act _ (.contact true) => none
      | .act n (.contact false) =>
        (Proc.step P true ps (.act n (.contact false))).map fun ps' =>
          ⟨s.nodes.set i ps', s.calls.filter fun c => !(c.src == i && c.run == n)⟩
      | l => (Proc.step P true ps l).map fun ps' => { s with nodes := s.nodes.set i ps' }
  | .arrive i n =>
    match (s.nodes[i]?).bind fun ps => (ps.insts[n]?).bind fun inst => pending ps.now ps.dt inst with
    | none => none
    | some (id, x) =>
      match dial id with
      | none => none
      | some j =>
        match s.nodes[j]? with
        | none => none
        | some pj =>
          if j ≠ i ∧ (s.calls.any fun c => c.src == i && c.run == n) = false then
            match Data.insert pj.now [] (fun _ _ _ w => (w, none)) pj.dt () (some x.datum) (some x.config) with
            | .ok out =>
              if out.err = none then
                some ⟨s.nodes.set j { pj with dt := out.data }, s.calls ++ [⟨i, n, j, id, x⟩]⟩
              else none
            | _ => none
          else none
  | .answer i n =>
    match s.calls.find? fun c => c.src == i && c.run == n with
    | none => none
    | some c =>
      match s.nodes[i]? with
      | none => none
      | some ps => (settle P ps n c).map fun ps' => ⟨s.nodes.set i ps', s.calls.filter fun c => !(c.src == i && c.run == n)⟩

def exec (P : PEnv) (dial : SourceId → Option Nat) (s : St) : List Label → Option St
  | [] => some s
  | l :: ls => (step P dial s l).bind fun s => exec P dial s ls

/-- The nodes with empty data sets, before any maintenance. -/
def start (cfgs : List DataConfig) (now : Int64) : St := ⟨cfgs.map fun c => initial (Data.newData c) now, []⟩

/-! ### Specification -/

/-- Node `i` stores something under the key. -/
def HasAt (s : St) (k : Bytes) (i : Nat) : Prop := ∃ ps, s.nodes[i]? = some ps ∧ ps.dt.dbMap.get? k ≠ none

/-- Some node does. -/
def Has (s : St) (k : Bytes) : Prop := ∃ i, HasAt s k i

/-- No node has an entry under the key that has expired. -/
def Unexpired (s : St) (k : Bytes) : Prop := ∀ ps ∈ s.nodes, ∀ e, ps.dt.dbMap.get? k = some e → isExpired e ps.now = false

/-- The step is not a client's deletion of the key. -/
def Spares (k : Bytes) : Label → Prop
  | .node _ (.delete d) => getKeyAsBytes d ≠ some k
  | _ => True

/-- `Q` holds at every step of the execution. -/
def Always (P : PEnv) (dial : SourceId → Option Nat) (Q : St → Label → Prop) : St → List Label → Prop
  | _, [] => True
  | s, l :: ls => Q s l ∧ ∀ s', step P dial s l = some s' → Always P dial Q s' ls

end Bal
open Bal

/-- C158, full statement: a datum that no client deletes, and that has not expired anywhere, stays on some node, whatever is transferred
and evicted.  FALSE of the code: two nodes that send it to each other at the same time both remove it. -/
def C158_last_copy_statement : Prop :=
  ∀ (P : PEnv) (dial : SourceId → Option Nat) (cfgs : List DataConfig) (now : Int64) (ls ls' : List Bal.Label) (s s' : St) (k : Bytes),
    Bal.exec P dial (start cfgs now) ls = some s → Bal.exec P dial s ls' = some s' →
    Always P dial (fun s l => Unexpired s k ∧ Spares k l) (start cfgs now) (ls ++ ls') → Has s k → Has s' k

namespace Bal

/-! ### Lemmas -/

variable {P : PEnv} {dial : SourceId → Option Nat} {k : Bytes}

theorem insert_has {now : Int64} {m m' : DBMap} {d : Datum} {config : Option InsertConfig} {b : Bool}
    (h : insertBDMap now m (some d) config = .ok (m', b)) : ∃ k, getKeyAsBytes d = some k ∧ m'.get? k ≠ none := by
  unfold insertBDMap at h
  simp only [Res.ofOption, Res.bind_eq, Res.bind_ok, Res.pure_eq] at h
  cases hg : getKeyAsBytes d with
  | none => rw [hg] at h; cases h
  | some kb =>
    rw [hg] at h
    simp only [Res.bind_ok] at h
    refine ⟨kb, rfl, ?_⟩
    have hset : ∀ e, (m.set (encodeToString kb) e).get? kb ≠ none := by
      intro e
      rw [show encodeToString kb = kb from rfl, AMap.get?_set_self]
      simp
    split at h
    · rename_i oe hoe
      cases hv : getValueAsBytes d with
      | none => rw [hv] at h; cases h
      | some vb =>
        rw [hv] at h
        simp only [Res.bind_ok] at h
        cases hv2 : getValueAsBytes oe.datum with
        | none => rw [hv2] at h; cases h
        | some vb2 =>
          rw [hv2] at h
          simp only [Res.bind_ok] at h
          split at h
          · cases h
            rw [show encodeToString kb = kb from rfl] at hoe
            rw [hoe]; simp
          · cases h; exact hset _
    · cases h; exact hset _

/-- A step of one node alone keeps the key unless it has expired or a client deletes it. -/
theorem proc_keeps {ps ps' : PS} {l : Proc.Label} (h : Proc.step P true ps l = some ps') (hc : ∀ n, l ≠ .act n (.contact true))
    (hs : ∀ d, l = .delete d → getKeyAsBytes d ≠ some k) (hf : ∀ e, ps.dt.dbMap.get? k = some e → isExpired e ps.now = false)
    (hk : ps.dt.dbMap.get? k ≠ none) : ps'.dt.dbMap.get? k ≠ none := by
  intro hk'
  obtain ⟨e, he⟩ := Option.ne_none_iff_exists'.1 hk
  by_cases hd : ∃ d, l = .delete d
  · obtain ⟨d, rfl⟩ := hd
    simp only [Proc.step, if_true, Data.delete, deleteBDMap] at h
    have := hs d rfl
    cases hg : getKeyAsBytes d with
    | none => simp [hg, Res.ofOption, Res.bind] at h
    | some kb =>
      simp only [hg, Res.ofOption, Res.bind, Res.bind_eq, Res.pure_eq, Option.some.injEq] at h
      subst h
      simp only [AMap.get?_erase] at hk'
      split at hk'
      · rename_i e1
        exact this (by rw [hg, e1])
      · exact hk hk'
  · rcases C76_no_update_lost_partial P ps ps' l h (fun d e => hd ⟨d, e⟩) k e he hk' with hx | ⟨j, id, x, hl, -⟩
    · rw [hf e he] at hx; cases hx
    · exact hc j hl

theorem settle_keeps {ps ps' : PS} {n : Nat} {c : Call} (h : settle P ps n c = some ps') (hk : ps.dt.dbMap.get? k ≠ none)
    (hc : getKeyAsBytes c.item.datum ≠ some k) : ps'.dt.dbMap.get? k ≠ none := by
  unfold settle at h
  split at h
  · cases h
  · split at h
    · cases h
    · simp only at h
      split at h
      · split at h
        · cases h
        · rename_i k' hk'
          injection h with h
          subst h
          simp only [AMap.get?_erase]
          split
          · rename_i e; exact absurd (by rw [hk', e]) hc
          · exact hk
      · injection h with h
        subst h
        exact hk

theorem hasAt_set {s : St} {i j : Nat} {ps ps' : PS} {cs : List Call} (hi : s.nodes[i]? = some ps)
    (h : ps.dt.dbMap.get? k ≠ none → ps'.dt.dbMap.get? k ≠ none) (hj : HasAt s k j) : HasAt ⟨s.nodes.set i ps', cs⟩ k j := by
  obtain ⟨p, h1, h2⟩ := hj
  have hlt := (List.getElem?_eq_some_iff.1 hi).1
  by_cases e : i = j
  · subst e
    rw [hi] at h1
    injection h1 with h1
    subst h1
    exact ⟨ps', by simp [hlt], h h2⟩
  · exact ⟨p, by simp [List.getElem?_set_ne e, h1], h2⟩

/-- What a step does to the nodes that have the key: it stays where it is, unless the answer to a transfer of it comes back. -/
theorem step_keeps {s s' : St} {l : Label} (h : step P dial s l = some s') (hf : Unexpired s k) (hs : Spares k l) :
    (∀ j, HasAt s k j → HasAt s' k j ∨ ∃ n c ps, l = .answer j n ∧ c ∈ s.calls ∧ c.src = j ∧ getKeyAsBytes c.item.datum = some k ∧
      s.nodes[j]? = some ps ∧ ∃ ps', settle P ps n c = some ps' ∧ ps'.dt.dbMap.get? k = none) ∧
    ∀ c ∈ s'.calls, c ∈ s.calls ∨ (c.dst ≠ c.src ∧ ∀ k', getKeyAsBytes c.item.datum = some k' → HasAt s' k' c.dst) := by
  cases l with
  | node i l =>
    unfold step at h
    simp only at h
    cases hi : s.nodes[i]? with
    | none => rw [hi] at h; cases h
    | some ps =>
      rw [hi] at h
      simp only at h
      have hfi : ∀ e, ps.dt.dbMap.get? k = some e → isExpired e ps.now = false := hf ps (List.mem_of_getElem? hi)
      have hsd : ∀ d, l = .delete d → getKeyAsBytes d ≠ some k := by rintro d rfl; exact hs
      split at h
      · cases h
      · rename_i n
        cases hp : Proc.step P true ps (.act n (.contact false)) with
        | none => rw [hp] at h; cases h
        | some ps' =>
          rw [hp] at h
          simp only [Option.map_some, Option.some.injEq] at h
          subst h
          refine ⟨fun j hj => .inl (hasAt_set hi (proc_keeps hp (fun m e => by cases e) hsd hfi) hj), fun c hc => .inl (List.mem_filter.1 hc).1⟩
      · rename_i hn1 hn2
        cases hp : Proc.step P true ps l with
        | none => rw [hp] at h; cases h
        | some ps' =>
          rw [hp] at h
          simp only [Option.map_some, Option.some.injEq] at h
          subst h
          refine ⟨fun j hj => .inl (hasAt_set hi (proc_keeps hp (fun m e => hn1 m e) hsd hfi) hj), fun c hc => .inl hc⟩
  | arrive i n =>
    unfold step at h
    simp only at h
    split at h
    · cases h
    · rename_i id x hp
      split at h
      · cases h
      · rename_i j hd
        split at h
        · cases h
        · rename_i pj hj
          split at h
          · rename_i hg
            split at h
            · rename_i out ho
              split at h
              · rename_i he
                injection h with h
                subst h
                rcases Data.insert_cases _ _ _ _ _ _ _ _ ho with ⟨_, rfl⟩ | ⟨_, d, dc, m, b, hdd, _, hm, hdata, _⟩
                · cases he
                · cases hdd
                  have hdb : pj.dt.initData.dbMap = pj.dt.dbMap := Data.initData_dbMap _
                  have hout : out.data.dbMap = m := by rw [hdata]
                  have hlt := (List.getElem?_eq_some_iff.1 hj).1
                  refine ⟨fun j' hj' => .inl (hasAt_set hj (fun hk => ?_) hj'), fun c hc => ?_⟩
                  · show out.data.dbMap.get? k ≠ none
                    rw [hout]
                    exact insertBDMap_keeps hm k hk
                  · rcases List.mem_append.1 hc with hc | hc
                    · exact .inl hc
                    · rw [List.mem_singleton.1 hc]
                      refine .inr ⟨hg.1, fun k' hk' => ?_⟩
                      obtain ⟨k2, h1, h2⟩ := insert_has hm
                      rw [hk'] at h1
                      injection h1 with h1
                      refine ⟨{ pj with dt := out.data }, by simp [hlt], ?_⟩
                      show out.data.dbMap.get? k' ≠ none
                      rw [hout, h1]; exact h2
              · cases h
            · cases h
          · cases h
  | answer i n =>
    unfold step at h
    simp only at h
    split at h
    · cases h
    · rename_i c hc
      have hcm := List.mem_of_find?_eq_some hc
      have hcp := List.find?_some hc
      simp only [Bool.and_eq_true, beq_iff_eq] at hcp
      split at h
      · cases h
      · rename_i ps hi
        cases hp : settle P ps n c with
        | none => rw [hp] at h; cases h
        | some ps' =>
          rw [hp] at h
          simp only [Option.map_some, Option.some.injEq] at h
          subst h
          refine ⟨fun j hj => ?_, fun c hc => .inl (List.mem_filter.1 hc).1⟩
          by_cases hk : getKeyAsBytes c.item.datum = some k
          · by_cases hij : i = j
            · subst hij
              by_cases hg : ps'.dt.dbMap.get? k = none
              · exact .inr ⟨n, c, ps, rfl, hcm, hcp.1, hk, hi, ps', hp, hg⟩
              · exact .inl (hasAt_set hi (fun _ => hg) hj)
            · obtain ⟨p, h1, h2⟩ := hj
              exact .inl ⟨p, by simp [List.getElem?_set_ne hij, h1], h2⟩
          · exact .inl (hasAt_set hi (fun h => settle_keeps hp h hk) hj)

theorem exec_append : ∀ (a b : List Label) (s : St), exec P dial s (a ++ b) = (exec P dial s a).bind fun s => exec P dial s b
  | [], _, _ => rfl
  | l :: a, b, s => by
    simp only [List.cons_append, exec]
    cases step P dial s l with
    | none => rfl
    | some s1 => exact exec_append a b s1

theorem always_mono {Q R : St → Label → Prop} (h : ∀ s l, Q s l → R s l) : ∀ (ls : List Label) (s : St), Always P dial Q s ls → Always P dial R s ls
  | [], _, _ => trivial
  | _ :: ls, _, ha => ⟨h _ _ ha.1, fun s' hs => always_mono h ls s' (ha.2 s' hs)⟩

theorem always_append {Q : St → Label → Prop} : ∀ (a b : List Label) (s s' : St), Always P dial Q s (a ++ b) → exec P dial s a = some s' →
    Always P dial Q s a ∧ Always P dial Q s' b
  | [], b, s, s', h, he => by
    simp only [exec, Option.some.injEq] at he
    subst he
    exact ⟨trivial, h⟩
  | l :: a, b, s, s', h, he => by
    simp only [exec] at he
    cases hs : step P dial s l with
    | none => rw [hs] at he; cases he
    | some s1 =>
      rw [hs] at he
      have := always_append a b s1 s' (h.2 s1 hs) he
      refine ⟨⟨h.1, fun s2 hs2 => ?_⟩, this.2⟩
      rw [hs] at hs2
      injection hs2 with hs2
      rw [← hs2]; exact this.1

/-- Every answered transfer of the key that is under way has left it on its destination. -/
def Inv (k : Bytes) (s : St) : Prop := ∀ c ∈ s.calls, getKeyAsBytes c.item.datum = some k → c.dst ≠ c.src ∧ HasAt s k c.dst

/-- When a node removes the key because the answer to a transfer of it has come back, no other node has sent it the key and waits for the
answer. -/
def Apart (P : PEnv) (k : Bytes) (s : St) : Label → Prop
  | .answer i n => ∀ c ∈ s.calls, c.src = i → getKeyAsBytes c.item.datum = some k → ∀ ps, s.nodes[i]? = some ps →
      (∃ ps', settle P ps n c = some ps' ∧ ps'.dt.dbMap.get? k = none) →
      ∀ c' ∈ s.calls, getKeyAsBytes c'.item.datum = some k → c'.dst ≠ i
  | _ => True

theorem apart_step {s s' : St} {l : Label} (h : step P dial s l = some s') (hf : Unexpired s k) (hs : Spares k l) (ha : Apart P k s l) (hi : Inv k s) :
    Inv k s' ∧ (Has s k → Has s' k) := by
  obtain ⟨h1, h2⟩ := step_keeps h hf hs
  constructor
  · intro c hc hck
    rcases h2 c hc with hc1 | ⟨hne, hd⟩
    · obtain ⟨hne, hd⟩ := hi c hc1 hck
      refine ⟨hne, ?_⟩
      rcases h1 _ hd with h | ⟨n, c', ps, rfl, hc', hs', hk', hp, hg⟩
      · exact h
      · exact absurd rfl (ha c' hc' hs' hk' ps hp hg c hc1 hck)
    · exact ⟨hne, hd k hck⟩
  · rintro ⟨j, hj⟩
    rcases h1 j hj with h | ⟨n, c', ps, rfl, hc', hs', hk', -⟩
    · exact ⟨j, h⟩
    · obtain ⟨hne, hd⟩ := hi c' hc' hk'
      rcases h1 _ hd with h | ⟨n2, c2, ps2, e, -⟩
      · exact ⟨_, h⟩
      · injection e with e1 e2
        exact absurd (e1.symm.trans hs'.symm) hne

theorem apart_exec : ∀ (ls : List Label) (s s' : St), exec P dial s ls = some s' → Always P dial (fun s l => (Unexpired s k ∧ Spares k l) ∧ Apart P k s l) s ls →
    Inv k s → Inv k s' ∧ (Has s k → Has s' k)
  | [], s, s', h, _, hi => by
    simp only [exec, Option.some.injEq] at h
    subst h
    exact ⟨hi, id⟩
  | l :: ls, s, s', h, ha, hi => by
    simp only [exec] at h
    cases hs : step P dial s l with
    | none => rw [hs] at h; cases h
    | some s1 =>
      rw [hs] at h
      obtain ⟨a1, a2⟩ := apart_step hs ha.1.1.1 ha.1.1.2 ha.1.2 hi
      obtain ⟨b1, b2⟩ := apart_exec ls s1 s' h (ha.2 s1 hs) a1
      exact ⟨b1, fun h => b2 (a2 h)⟩

end Bal

/-- C158, what holds: the last copy is never removed if no two nodes have sent the datum to each other, or in a circle, at the same time:
no node is told that a transfer of it was accepted while another node waits to be told that this node accepted it. -/
theorem C158_last_copy_partial (P : PEnv) (dial : SourceId → Option Nat) (cfgs : List DataConfig) (now : Int64) (ls ls' : List Bal.Label)
    (s s' : St) (k : Bytes) (h : Bal.exec P dial (start cfgs now) ls = some s) (h' : Bal.exec P dial s ls' = some s')
    (ha : Always P dial (fun s l => (Unexpired s k ∧ Spares k l) ∧ Apart P k s l) (start cfgs now) (ls ++ ls')) (hk : Has s k) : Has s' k := by
  obtain ⟨a1, a2⟩ := always_append ls ls' _ s ha h
  obtain ⟨hi, -⟩ := apart_exec ls _ s h a1 (fun c hc => by cases hc)
  exact (apart_exec ls' s s' h' a2 hi).2 hk

namespace Bal
variable {P : PEnv} {dial : SourceId → Option Nat} {k : Bytes}

/-- The node never evicts. -/
structure Calm (ps : PS) : Prop where
  init : ps.dt.initialized = true
  alive : ps.dt.alive = true
  conf : ∃ c, ps.dt.config = some c ∧ c.noTarget = true
  insts : ∀ i ∈ ps.insts, i.config.noTarget = true

theorem calm_settle {ps ps' : PS} {n : Nat} {c : Call} (hc : Calm ps) (h : settle P ps n c = some ps') : Calm ps' ∧ ps'.dt = ps.dt := by
  unfold settle at h
  split at h
  · cases h
  · rename_i i hi
    split at h
    · cases h
    · simp only at h
      have hm := List.mem_of_getElem? hi
      have hev : ∀ d, isEvictionOn P i.localInfo i.config d = false := by
        intro d; unfold isEvictionOn; rw [hc.insts i hm]; rfl
      rw [if_neg (by rw [hc.alive, hev]; simp)] at h
      injection h with h
      subst h
      refine ⟨⟨hc.init, hc.alive, hc.conf, fun x hx => ?_⟩, rfl⟩
      rcases mem_set_list hx with rfl | hx
      · exact hc.insts i hm
      · exact hc.insts x hx

theorem calm_proc {ps ps' : PS} {l : Proc.Label} (hc : Calm ps) (h : Proc.step P true ps l = some ps') (hl : l ≠ .closeBegin) : Calm ps' := by
  have hs := sstep_of h
  obtain ⟨h1, -, h3⟩ := sstep_alive hs hc.init
  obtain ⟨c, hcc, hcn⟩ := hc.conf
  have hini : ps.dt.initData = ps.dt := Data.initData_of_initialized hc.init
  have hconf : ∃ c, ps'.dt.config = some c ∧ c.noTarget = true := ⟨c, h3.trans hcc, hcn⟩
  have happ : ∀ i : Inst, ps.dt.config = some i.config → ∀ x ∈ ps.insts ++ [i], x.config.noTarget = true := by
    intro i hi x hx
    rcases List.mem_append.1 hx with hx | hx
    · exact hc.insts x hx
    · rw [List.mem_singleton.1 hx]
      rw [hcc] at hi
      injection hi with hi
      rw [← hi]; exact hcn
  cases hs with
  | run _ hf => exact ⟨h1, hc.alive, hconf, happ _ hf.config⟩
  | closeRun _ _ _ hf => exact ⟨h1, hc.alive, hconf, happ _ hf.config⟩
  | @act j i i' a dt' acks hj hst =>
    have hm := List.mem_of_getElem? hj
    refine ⟨h1, ?_, hconf, fun x hx => ?_⟩
    · cases hst <;> exact hc.alive
    · rcases mem_set_list hx with rfl | hx
      · have := hc.insts i hm
        cases hst <;> exact this
      · exact hc.insts x hx
  | closeBegin => exact absurd rfl hl
  | write _ ho =>
    refine ⟨h1, ?_, hconf, hc.insts⟩
    rcases Data.insert_cases _ _ _ _ _ _ _ _ ho with ⟨_, rfl⟩ | ⟨_, d, dc, m, b, hd, _, hm, hdata, _⟩
    · exact hc.alive
    · simp only [hdata, hini]; exact hc.alive
  | delete _ ho =>
    obtain ⟨m, rfl⟩ := delete_frame ho
    exact ⟨h1, hc.alive, hconf, hc.insts⟩
  | _ => exact ⟨h1, by first | exact hc.alive | (simp only [hini]; exact hc.alive), hconf, hc.insts⟩

/-- All nodes but `i0` never evict; what `i0` has transferred is on another node. -/
structure One (i0 : Nat) (k : Bytes) (s : St) : Prop where
  calm : ∀ i ps, i ≠ i0 → s.nodes[i]? = some ps → Calm ps
  sent : ∀ c ∈ s.calls, c.src = i0 → getKeyAsBytes c.item.datum = some k → c.dst ≠ i0 ∧ HasAt s k c.dst

theorem calm_set {s : St} {i0 i : Nat} {ps' : PS} (h : ∀ i ps, i ≠ i0 → s.nodes[i]? = some ps → Calm ps) (hp : i ≠ i0 → Calm ps') :
    ∀ j ps, j ≠ i0 → (s.nodes.set i ps')[j]? = some ps → Calm ps := by
  intro j ps hj hg
  rw [List.getElem?_set] at hg
  split at hg
  · rename_i e
    subst e
    split at hg
    · injection hg with hg
      rw [← hg]; exact hp hj
    · cases hg
  · exact h j ps hj hg

theorem one_calm {s s' : St} {l : Label} {i0 : Nat} (h : step P dial s l = some s') (hl : ∀ i, i ≠ i0 → l ≠ .node i .closeBegin)
    (hc : ∀ i ps, i ≠ i0 → s.nodes[i]? = some ps → Calm ps) : ∀ i ps, i ≠ i0 → s'.nodes[i]? = some ps → Calm ps := by
  cases l with
  | node i l =>
    unfold step at h
    simp only at h
    cases hi : s.nodes[i]? with
    | none => rw [hi] at h; cases h
    | some ps =>
      rw [hi] at h
      simp only at h
      split at h
      · cases h
      · rename_i n
        cases hp : Proc.step P true ps (.act n (.contact false)) with
        | none => rw [hp] at h; cases h
        | some ps' =>
          rw [hp] at h
          simp only [Option.map_some, Option.some.injEq] at h
          subst h
          exact calm_set hc fun hne => calm_proc (hc i ps hne hi) hp (fun e => by cases e)
      · cases hp : Proc.step P true ps l with
        | none => rw [hp] at h; cases h
        | some ps' =>
          rw [hp] at h
          simp only [Option.map_some, Option.some.injEq] at h
          subst h
          exact calm_set hc fun hne => calm_proc (hc i ps hne hi) hp (fun e => hl i hne (by rw [e]))
  | arrive i n =>
    unfold step at h
    simp only at h
    split at h
    · cases h
    · rename_i id x hp
      split at h
      · cases h
      · rename_i j hd
        split at h
        · cases h
        · rename_i pj hj
          split at h
          · split at h
            · rename_i out ho
              split at h
              · injection h with h
                subst h
                refine calm_set hc fun hne => ?_
                have : Proc.step P true pj (.write x.datum (some x.config)) = some { pj with dt := out.data } := by
                  simp only [Proc.step, if_true, ho]
                exact calm_proc (hc j pj hne hj) this (fun e => by cases e)
              · cases h
            · cases h
          · cases h
  | answer i n =>
    unfold step at h
    simp only at h
    split at h
    · cases h
    · rename_i c _
      split at h
      · cases h
      · rename_i ps hi
        cases hp : settle P ps n c with
        | none => rw [hp] at h; cases h
        | some ps' =>
          rw [hp] at h
          simp only [Option.map_some, Option.some.injEq] at h
          subst h
          exact calm_set hc fun hne => (calm_settle (hc i ps hne hi) hp).1

theorem one_step {s s' : St} {l : Label} {i0 : Nat} (h : step P dial s l = some s') (hf : Unexpired s k) (hs : Spares k l)
    (hl : ∀ i, i ≠ i0 → l ≠ .node i .closeBegin) (ho : One i0 k s) : One i0 k s' ∧ (Has s k → Has s' k) := by
  obtain ⟨h1, h2⟩ := step_keeps h hf hs
  have hstay : ∀ j, j ≠ i0 → HasAt s k j → HasAt s' k j := by
    intro j hj hk
    rcases h1 j hk with h' | ⟨n, c, ps, rfl, hc, hs, hck, hp, hg⟩
    · exact h'
    · exfalso
      obtain ⟨ps1, hp1, hk1⟩ := hk
      rw [hp] at hp1
      injection hp1 with hp1
      subst hp1
      obtain ⟨ps', h3, h4⟩ := hg
      rw [(calm_settle (ho.calm j ps hj hp) h3).2] at h4
      exact hk1 h4
  refine ⟨⟨one_calm h hl ho.calm, fun c hc hsrc hck => ?_⟩, ?_⟩
  · rcases h2 c hc with hc1 | ⟨hne, hd⟩
    · obtain ⟨hne, hd⟩ := ho.sent c hc1 hsrc hck
      exact ⟨hne, hstay _ hne hd⟩
    · exact ⟨hsrc ▸ hne, hd k hck⟩
  · rintro ⟨j, hj⟩
    rcases h1 j hj with h' | ⟨n, c, ps, rfl, hc, hsrc, hck, -⟩
    · exact ⟨j, h'⟩
    · by_cases hj0 : j = i0
      · subst hj0
        obtain ⟨hne, hd⟩ := ho.sent c hc hsrc hck
        exact ⟨_, hstay _ hne hd⟩
      · exact ⟨j, hstay j hj0 hj⟩

theorem one_exec {i0 : Nat} : ∀ (ls : List Label) (s s' : St), exec P dial s ls = some s' → Always P dial (fun s l => Unexpired s k ∧ Spares k l) s ls →
    (∀ i, i ≠ i0 → Label.node i .closeBegin ∉ ls) → One i0 k s → One i0 k s' ∧ (Has s k → Has s' k)
  | [], s, s', h, _, _, hi => by
    simp only [exec, Option.some.injEq] at h
    subst h
    exact ⟨hi, id⟩
  | l :: ls, s, s', h, ha, hl, hi => by
    simp only [exec] at h
    cases hs : step P dial s l with
    | none => rw [hs] at h; cases h
    | some s1 =>
      rw [hs] at h
      obtain ⟨a1, a2⟩ := one_step hs ha.1.1 ha.1.2 (fun i hne e => hl i hne (by simp [e])) hi
      obtain ⟨b1, b2⟩ := one_exec ls s1 s' h (ha.2 s1 hs) (fun i hne hm => hl i hne (by simp [hm])) a1
      exact ⟨b1, fun h => b2 (a2 h)⟩

end Bal

/-- C158, what holds: the last copy is never removed if all nodes but one have no target and stay open. -/
theorem C158_one_partial (P : PEnv) (dial : SourceId → Option Nat) (cfgs : List DataConfig) (now : Int64) (ls ls' : List Bal.Label)
    (s s' : St) (k : Bytes) (h : Bal.exec P dial (start cfgs now) ls = some s) (h' : Bal.exec P dial s ls' = some s')
    (ha : Always P dial (fun s l => Unexpired s k ∧ Spares k l) (start cfgs now) (ls ++ ls')) (i0 : Nat)
    (hc : ∀ i c, i ≠ i0 → cfgs[i]? = some c → c.noTarget = true) (hl : ∀ i, i ≠ i0 → Bal.Label.node i .closeBegin ∉ ls ++ ls')
    (hk : Has s k) : Has s' k := by
  obtain ⟨a1, a2⟩ := always_append ls ls' _ s ha h
  have hs : One i0 k (start cfgs now) := by
    refine ⟨fun i ps hi hp => ?_, fun c hc => by cases hc⟩
    simp only [start, List.getElem?_map, Option.map_eq_some_iff] at hp
    obtain ⟨c, hcg, rfl⟩ := hp
    exact ⟨rfl, rfl, ⟨c, rfl, hc i c hi hcg⟩, fun x hx => by cases hx⟩
  obtain ⟨hi, -⟩ := one_exec ls _ s h a1 (fun i hne hm => hl i hne (List.mem_append_left _ hm)) hs
  exact (one_exec ls' s s' h' a2 (fun i hne hm => hl i hne (List.mem_append_right _ hm)) hi).2 hk

namespace Bal

/-- Node 0 is "a", node 1 is "b". -/
def exDial (id : SourceId) : Option Nat := if id = "a" then some 0 else if id = "b" then some 1 else none

/-- A node is given a datum, counts it, and comes to sending it to its peer. -/
def exSends (i : Nat) (peer : String) : List Label :=
  (exFirst [peer] 1000).map (.node i) ++ [.node i (.tick 1100), .node i (.run (fun _ => some exInfo) [peer]), .node i (.act 1 (.meet (exK 1))),
    .node i (.act 1 (.offer 0)), .node i (.act 1 .send), .node i (.act 1 (.recv [(peer, 1)]))]

/-- Where the key is, and the transfers under way. -/
def exWhere (s : St) : List Bool × Nat := (s.nodes.map fun ps => (ps.dt.dbMap.get? (exK 1)).isSome, s.calls.length)

def unexpiredB (s : St) (k : Bytes) : Bool :=
  s.nodes.all fun ps => match ps.dt.dbMap.get? k with
    | some e => !isExpired e ps.now
    | none => true

theorem unexpired_of {s : St} {k : Bytes} (h : unexpiredB s k = true) : Unexpired s k := by
  intro ps hps e he
  have := List.all_eq_true.1 h ps hps
  rw [he] at this
  simpa using this

/-- Nothing has expired on the way, and no step is a deletion. -/
def quietB (P : PEnv) (dial : SourceId → Option Nat) (k : Bytes) : St → List Label → Bool
  | _, [] => true
  | s, l :: ls => unexpiredB s k && (match l with | .node _ (.delete _) => false | _ => true) &&
      match step P dial s l with
      | some s' => quietB P dial k s' ls
      | none => true

theorem quiet_of {P : PEnv} {dial : SourceId → Option Nat} {k : Bytes} : ∀ (ls : List Label) (s : St), quietB P dial k s ls = true →
    Always P dial (fun s l => Unexpired s k ∧ Spares k l) s ls
  | [], _, _ => trivial
  | l :: ls, s, h => by
    simp only [quietB, Bool.and_eq_true] at h
    obtain ⟨⟨h1, h2⟩, h3⟩ := h
    refine ⟨⟨unexpired_of h1, ?_⟩, fun s' hs => ?_⟩
    · unfold Spares
      split
      · cases h2
      · trivial
    · rw [hs] at h3
      exact quiet_of ls s' h3

theorem has_of {s : St} {k : Bytes} : Has s k ↔ (s.nodes.any fun ps => (ps.dt.dbMap.get? k).isSome) = true := by
  unfold Has HasAt
  rw [List.any_eq_true]
  constructor
  · rintro ⟨i, ps, h1, h2⟩
    exact ⟨ps, List.mem_of_getElem? h1, by rw [Option.isSome_iff_ne_none]; exact h2⟩
  · rintro ⟨ps, h1, h2⟩
    obtain ⟨i, hi⟩ := List.mem_iff_getElem?.1 h1
    exact ⟨i, ps, hi, by rw [Option.isSome_iff_ne_none] at h2; exact h2⟩

/-- Both nodes send, both accept, both are told. -/
def exCross : List Label := [.arrive 0 1, .arrive 1 1, .answer 0 1, .answer 1 1]

end Bal

/-- C158 fails: two nodes above their marks send the datum to each other; both accept what they have already, and both remove it. -/
theorem C158_last_copy_fails : ¬ C158_last_copy_statement := by
  intro h
  have hx : ((Bal.exec softP exDial (start [exCfg exU, exCfg exU] 1000) (exSends 0 "b" ++ exSends 1 "a")).bind fun s =>
      (Bal.exec softP exDial s exCross).map fun s' => (exWhere s, exWhere s')) = some (([true, true], 0), ([false, false], 0)) := by decide +kernel
  have hq : quietB softP exDial (exK 1) (start [exCfg exU, exCfg exU] 1000) ((exSends 0 "b" ++ exSends 1 "a") ++ exCross) = true := by decide +kernel
  cases h1 : Bal.exec softP exDial (start [exCfg exU, exCfg exU] 1000) (exSends 0 "b" ++ exSends 1 "a") with
  | none => rw [h1] at hx; cases hx
  | some s =>
    rw [h1] at hx
    simp only [Option.bind_some] at hx
    cases h2 : Bal.exec softP exDial s exCross with
    | none => rw [h2] at hx; cases hx
    | some s' =>
      rw [h2] at hx
      simp only [Option.map_some, Option.some.injEq, Prod.mk.injEq, exWhere] at hx
      have hb := h softP exDial _ _ _ _ s s' (exK 1) h1 h2 (quiet_of _ _ hq) (has_of.2 ?_)
      · rw [has_of] at hb
        have := hx.2.1
        rw [List.any_eq_true] at hb
        obtain ⟨ps, hp, hpk⟩ := hb
        have hm : (ps.dt.dbMap.get? (exK 1)).isSome ∈ s'.nodes.map fun ps => (ps.dt.dbMap.get? (exK 1)).isSome := List.mem_map.2 ⟨ps, hp, rfl⟩
        rw [this, hpk] at hm
        simp at hm
      · have := hx.1.1
        rw [List.any_eq_true]
        have hm : true ∈ s.nodes.map fun ps => (ps.dt.dbMap.get? (exK 1)).isSome := by rw [this]; simp
        obtain ⟨ps, hp, hpk⟩ := List.mem_map.1 hm
        exact ⟨ps, hp, hpk⟩

/-- One of the two nodes has no target: it keeps the copy that the other removes. -/
theorem C158_example : ∃ s s', Bal.exec softP exDial (start [exCfg exU, { exCfg exU with noTarget := true }] 1000) (exSends 0 "b" ++ exSends 1 "a") = some s ∧
    Bal.exec softP exDial s exCross = some s' ∧ exWhere s = ([true, true], 0) ∧ exWhere s' = ([false, true], 0) ∧ Has s' (exK 1) := by
  have hx : ((Bal.exec softP exDial (start [exCfg exU, { exCfg exU with noTarget := true }] 1000) (exSends 0 "b" ++ exSends 1 "a")).bind fun s =>
      (Bal.exec softP exDial s exCross).map fun s' => (exWhere s, exWhere s')) = some (([true, true], 0), ([false, true], 0)) := by decide +kernel
  have hq : quietB softP exDial (exK 1) (start [exCfg exU, { exCfg exU with noTarget := true }] 1000) ((exSends 0 "b" ++ exSends 1 "a") ++ exCross) = true := by
    decide +kernel
  cases h1 : Bal.exec softP exDial (start [exCfg exU, { exCfg exU with noTarget := true }] 1000) (exSends 0 "b" ++ exSends 1 "a") with
  | none => rw [h1] at hx; cases hx
  | some s =>
    rw [h1] at hx
    simp only [Option.bind_some] at hx
    cases h2 : Bal.exec softP exDial s exCross with
    | none => rw [h2] at hx; cases hx
    | some s' =>
      rw [h2] at hx
      simp only [Option.map_some, Option.some.injEq, Prod.mk.injEq] at hx
      refine ⟨s, s', rfl, h2, hx.1, hx.2, ?_⟩
      refine C158_one_partial softP exDial _ _ _ _ s s' (exK 1) h1 h2 (quiet_of _ _ hq) 0 ?_ ?_ (has_of.2 ?_)
      · intro i c hi hc
        match i, hi, hc with
        | 1, _, hc => simp at hc; rw [← hc]
        | n + 2, _, hc => simp at hc
      · intro i _ hm
        simp [exSends, exFirst, exCross] at hm
      · have := congrArg Prod.fst hx.1
        simp only [exWhere] at this
        rw [List.any_eq_true]
        have hm : true ∈ s.nodes.map fun ps => (ps.dt.dbMap.get? (exK 1)).isSome := by rw [this]; simp
        obtain ⟨ps, hp, hpk⟩ := List.mem_map.1 hm
        exact ⟨ps, hp, hpk⟩

namespace Bal

/-- One after the other. -/
def exInTurn : List Label := [.arrive 0 1, .answer 0 1, .arrive 1 1, .answer 1 1]

/-- No answer comes to a node that another node waits for. -/
def apartB (P : PEnv) (dial : SourceId → Option Nat) : St → List Label → Bool
  | _, [] => true
  | s, l :: ls => (match l with | .answer i _ => s.calls.all fun c => c.dst != i | _ => true) &&
      match step P dial s l with
      | some s' => apartB P dial s' ls
      | none => true

theorem apart_of {P : PEnv} {dial : SourceId → Option Nat} {k : Bytes} : ∀ (ls : List Label) (s : St), quietB P dial k s ls = true →
    apartB P dial s ls = true → Always P dial (fun s l => (Unexpired s k ∧ Spares k l) ∧ Apart P k s l) s ls
  | [], _, _, _ => trivial
  | l :: ls, s, hq, ha => by
    have h0 := (quiet_of (l :: ls) s hq).1
    simp only [quietB, Bool.and_eq_true] at hq
    simp only [apartB, Bool.and_eq_true] at ha
    refine ⟨⟨h0, ?_⟩, fun s' hs => ?_⟩
    · unfold Apart
      split
      · intro _ _ _ _ _ _ _ c' hc' _
        simpa using List.all_eq_true.1 ha.1 c' hc'
      · trivial
    · rw [hs] at hq ha
      exact apart_of ls s' hq.2 ha.2

end Bal

/-- The same two nodes one after the other: the datum goes to the second node and back again. -/
theorem C158_turn_example : ∃ s s', Bal.exec softP exDial (start [exCfg exU, exCfg exU] 1000) (exSends 0 "b" ++ exSends 1 "a") = some s ∧
    Bal.exec softP exDial s exInTurn = some s' ∧ exWhere s = ([true, true], 0) ∧ exWhere s' = ([true, false], 0) ∧ Has s' (exK 1) := by
  have hx : ((Bal.exec softP exDial (start [exCfg exU, exCfg exU] 1000) (exSends 0 "b" ++ exSends 1 "a")).bind fun s =>
      (Bal.exec softP exDial s exInTurn).map fun s' => (exWhere s, exWhere s')) = some (([true, true], 0), ([true, false], 0)) := by decide +kernel
  have hq : quietB softP exDial (exK 1) (start [exCfg exU, exCfg exU] 1000) ((exSends 0 "b" ++ exSends 1 "a") ++ exInTurn) = true := by decide +kernel
  have ha : apartB softP exDial (start [exCfg exU, exCfg exU] 1000) ((exSends 0 "b" ++ exSends 1 "a") ++ exInTurn) = true := by decide +kernel
  cases h1 : Bal.exec softP exDial (start [exCfg exU, exCfg exU] 1000) (exSends 0 "b" ++ exSends 1 "a") with
  | none => rw [h1] at hx; cases hx
  | some s =>
    rw [h1] at hx
    simp only [Option.bind_some] at hx
    cases h2 : Bal.exec softP exDial s exInTurn with
    | none => rw [h2] at hx; cases hx
    | some s' =>
      rw [h2] at hx
      simp only [Option.map_some, Option.some.injEq, Prod.mk.injEq] at hx
      refine ⟨s, s', rfl, h2, hx.1, hx.2, C158_last_copy_partial softP exDial _ _ _ _ s s' (exK 1) h1 h2 (apart_of _ _ hq ha) (has_of.2 ?_)⟩
      have := congrArg Prod.fst hx.1
      simp only [exWhere] at this
      rw [List.any_eq_true]
      have hm : true ∈ s.nodes.map fun ps => (ps.dt.dbMap.get? (exK 1)).isSome := by rw [this]; simp
      obtain ⟨ps, hp, hpk⟩ := List.mem_map.1 hm
      exact ⟨ps, hp, hpk⟩

namespace Bal

/-- A contact that adds to the log of acknowledgements is one that was pending. -/
theorem pending_iff {P : PEnv} {ps : PS} {n : Nat} {id : SourceId} {x : Item} (hk : getKeyAsBytes x.datum ≠ none) :
    ((ps.insts[n]?).bind fun inst => pending ps.now ps.dt inst) = some (id, x) ↔
    ∃ ps', Proc.step P true ps (.act n (.contact true)) = some ps' ∧ ps'.acks = ps.acks ++ [⟨id, x⟩] := by
  simp only [Proc.step]
  cases hi : ps.insts[n]? with
  | none => simp
  | some i =>
    simp only [Option.bind_some, instStep, pending]
    cases hc : i.consumer with
    | none => simp
    | some c =>
      simp only
      cases hcur : c.cur with
      | none => simp
      | some p =>
        obtain ⟨y, l⟩ := p
        cases l with
        | nil => simp
        | cons q rest =>
          obtain ⟨id', count⟩ := q
          simp only [contact, Bool.and_true]
          by_cases hb : (decide ((c.countMap.get? id').getD 0 < count) && liveSource ps.now (ps.dt.sources.getD []) id') = true
          · rw [if_pos hb, if_pos hb]
            by_cases he : (!ps.dt.alive || isEvictionOn P i.localInfo i.config c.deleted) = true
            · rw [if_pos he]
              constructor
              · intro h
                simp only [Option.some.injEq, Prod.mk.injEq] at h
                obtain ⟨rfl, rfl⟩ := h
                obtain ⟨k, hk'⟩ := Option.ne_none_iff_exists'.1 hk
                rw [hk']
                exact ⟨_, rfl, rfl⟩
              · rintro ⟨ps', h, ha⟩
                cases hg : getKeyAsBytes y.datum with
                | none => rw [hg] at h; cases h
                | some k =>
                  rw [hg] at h
                  simp only [Option.some.injEq] at h
                  subst h
                  simp only [List.append_cancel_left_eq, List.cons.injEq, Ack.mk.injEq, and_true] at ha
                  rw [ha.1, ha.2]
            · rw [if_neg he]
              simp only [Option.some.injEq, Prod.mk.injEq, exists_eq_left', List.append_cancel_left_eq, List.cons.injEq,
                Ack.mk.injEq, and_true]
          · rw [if_neg hb, if_neg hb]
            simp

/-- The answer to the pending transfer does what the contact does. -/
theorem settle_eq {P : PEnv} {ps : PS} {n i j : Nat} {id : SourceId} {x : Item}
    (h : ((ps.insts[n]?).bind fun inst => pending ps.now ps.dt inst) = some (id, x)) :
    settle P ps n ⟨i, n, j, id, x⟩ = Proc.step P true ps (.act n (.contact true)) := by
  simp only [Proc.step, settle]
  cases hi : ps.insts[n]? with
  | none => simp [hi] at h
  | some inst =>
    rw [hi] at h
    simp only [Option.bind_some, pending] at h
    cases hc : inst.consumer with
    | none => rw [hc] at h; cases h
    | some c =>
      rw [hc] at h
      simp only at h
      cases hcur : c.cur with
      | none => rw [hcur] at h; cases h
      | some p =>
        obtain ⟨y, l⟩ := p
        cases l with
        | nil => rw [hcur] at h; cases h
        | cons q rest =>
          obtain ⟨id', count⟩ := q
          rw [hcur] at h
          simp only at h
          split at h
          · rename_i hb
            simp only [Option.some.injEq, Prod.mk.injEq] at h
            obtain ⟨rfl, rfl⟩ := h
            simp only [instStep, hc, hcur, contact, Bool.and_true]
            rw [if_pos hb]
            simp only [Option.map_some, List.tail_cons]
            split
            · cases getKeyAsBytes y.datum <;> rfl
            · rfl
          · cases h

end Bal

/-- C158, the calls: a transfer arrives exactly when the run of the sender has come to one (its next contact, were it accepted, would be
acknowledged as this source's, data/newsync.go:113-118), it has no other call in flight, and the source is another node, which accepts
the insert.  Only the receiving node's data set changes. -/
theorem C158_arrives (P : PEnv) (dial : SourceId → Option Nat) (s s' : St) (i n : Nat) :
    Bal.step P dial s (.arrive i n) = some s' ↔
    ∃ ps ps' id x j pj out, s.nodes[i]? = some ps ∧ Proc.step P true ps (.act n (.contact true)) = some ps' ∧
      ps'.acks = ps.acks ++ [⟨id, x⟩] ∧ (∀ c ∈ s.calls, ¬ (c.src = i ∧ c.run = n)) ∧ dial id = some j ∧ j ≠ i ∧
      s.nodes[j]? = some pj ∧
      Data.insert pj.now [] (fun _ _ _ w => (w, none)) pj.dt () (some x.datum) (some x.config) = .ok out ∧ out.err = none ∧
      s' = ⟨s.nodes.set j { pj with dt := out.data }, s.calls ++ [⟨i, n, j, id, x⟩]⟩ := by
  have hkey : ∀ {pj : PS} {x : Item} {out : Data.InsertOut Unit},
      Data.insert pj.now [] (fun _ _ _ w => (w, none)) pj.dt () (some x.datum) (some x.config) = .ok out → out.err = none →
      getKeyAsBytes x.datum ≠ none := by
    intro pj x out ho he
    rcases Data.insert_cases _ _ _ _ _ _ _ _ ho with ⟨_, rfl⟩ | ⟨_, d, dc, m, b, hdd, _, hm, _, _⟩
    · cases he
    · cases hdd
      obtain ⟨k, hk, -⟩ := insert_has hm
      rw [hk]; simp
  have hany : (s.calls.any fun c => c.src == i && c.run == n) = false ↔ ∀ c ∈ s.calls, ¬ (c.src = i ∧ c.run = n) := by
    simp only [List.any_eq_false, Bool.and_eq_true, beq_iff_eq]
  constructor
  · intro h
    unfold Bal.step at h
    simp only at h
    split at h
    · cases h
    · rename_i id x hp
      split at h
      · cases h
      · rename_i j hd
        split at h
        · cases h
        · rename_i pj hj
          split at h
          · rename_i hg
            split at h
            · rename_i out ho
              split at h
              · rename_i he
                injection h with h
                obtain ⟨ps, hi, hp'⟩ := Option.bind_eq_some_iff.1 hp
                obtain ⟨ps', h1, h2⟩ := (pending_iff (P := P) (hkey ho he)).1 hp'
                exact ⟨ps, ps', id, x, j, pj, out, hi, h1, h2, hany.1 hg.2, hd, hg.1, hj, ho, he, h.symm⟩
              · cases h
            · cases h
          · cases h
  · rintro ⟨ps, ps', id, x, j, pj, out, hi, h1, h2, hc, hd, hji, hj, ho, he, rfl⟩
    have hp := (pending_iff (P := P) (hkey ho he)).2 ⟨ps', h1, h2⟩
    unfold Bal.step
    simp only [hi, Option.bind_some, hp, hd, hj]
    rw [if_pos ⟨hji, hany.2 hc⟩]
    simp only [ho, he, if_true]

/-- C158, the calls: where the answer comes back at once, the two steps are the accepted contact of the machine with one node, the insert
at the receiving node, and nothing else. -/
theorem C158_atomic (P : PEnv) (dial : SourceId → Option Nat) (s : St) (i n j : Nat) (ps ps' pj : PS) (id : SourceId) (x : Item)
    (out : Data.InsertOut Unit) (hi : s.nodes[i]? = some ps) (hs : Proc.step P true ps (.act n (.contact true)) = some ps')
    (ha : ps'.acks = ps.acks ++ [⟨id, x⟩]) (hc : ∀ c ∈ s.calls, ¬ (c.src = i ∧ c.run = n)) (hd : dial id = some j) (hji : j ≠ i)
    (hj : s.nodes[j]? = some pj)
    (hin : Data.insert pj.now [] (fun _ _ _ w => (w, none)) pj.dt () (some x.datum) (some x.config) = .ok out) (he : out.err = none) :
    Bal.exec P dial s [.arrive i n, .answer i n] = some ⟨(s.nodes.set j { pj with dt := out.data }).set i ps', s.calls⟩ := by
  have hst := (C158_arrives P dial s _ i n).2 ⟨ps, ps', id, x, j, pj, out, hi, hs, ha, hc, hd, hji, hj, hin, he, rfl⟩
  have hp : ((ps.insts[n]?).bind fun inst => pending ps.now ps.dt inst) = some (id, x) := by
    refine (pending_iff (P := P) ?_).2 ⟨ps', hs, ha⟩
    rcases Data.insert_cases _ _ _ _ _ _ _ _ hin with ⟨_, rfl⟩ | ⟨_, d, dc, m, b, hdd, _, hm, _, _⟩
    · cases he
    · cases hdd
      obtain ⟨k, hk, -⟩ := insert_has hm
      rw [hk]; simp
  simp only [Bal.exec, hst, Option.bind_some]
  have hfind : (s.calls ++ [(⟨i, n, j, id, x⟩ : Call)]).find? (fun c => c.src == i && c.run == n) = some ⟨i, n, j, id, x⟩ := by
    rw [List.find?_append, List.find?_eq_none.2 (fun c hm h => hc c hm (by simpa using h))]
    simp
  have hfil : (s.calls ++ [(⟨i, n, j, id, x⟩ : Call)]).filter (fun c => !(c.src == i && c.run == n)) = s.calls := by
    rw [List.filter_append, List.filter_eq_self.2 (fun c hm => by
      have := hc c hm
      rw [Bool.not_eq_true', Bool.and_eq_false_iff, beq_eq_false_iff_ne, beq_eq_false_iff_ne]
      exact Decidable.not_and_iff_or_not.1 this)]
    simp
  have hi' : (s.nodes.set j { pj with dt := out.data })[i]? = some ps := by rw [List.getElem?_set_ne hji, hi]
  simp only [Bal.step, hfind, hi', hfil]
  rw [settle_eq hp, hs]
  rfl

/-- C158, the calls: once the answer has come, or the sender has given it up, the call is gone and the others are as they were; the
sender goes on as after a contact of the machine with one node, and no other node changes. -/
theorem C158_ends (P : PEnv) (dial : SourceId → Option Nat) (s s' : St) (i n : Nat) (l : Bal.Label)
    (hl : l = .node i (.act n (.contact false)) ∨ l = .answer i n) (h : Bal.step P dial s l = some s') :
    (∀ c, c ∈ s'.calls ↔ c ∈ s.calls ∧ ¬ (c.src = i ∧ c.run = n)) ∧ (∀ j, j ≠ i → s'.nodes[j]? = s.nodes[j]?) ∧
    ∃ ps ps', s.nodes[i]? = some ps ∧ s'.nodes[i]? = some ps' ∧
      (l = .node i (.act n (.contact false)) → Proc.step P true ps (.act n (.contact false)) = some ps') := by
  have hf : ∀ c, c ∈ (s.calls.filter fun c => !(c.src == i && c.run == n)) ↔ c ∈ s.calls ∧ ¬ (c.src = i ∧ c.run = n) := by
    intro c
    rw [List.mem_filter, Bool.not_eq_true', Bool.and_eq_false_iff, beq_eq_false_iff_ne, beq_eq_false_iff_ne,
      Decidable.not_and_iff_or_not]
  have hset : ∀ {ps ps' : PS}, s.nodes[i]? = some ps → (s.nodes.set i ps')[i]? = some ps' := by
    intro ps ps' hi
    have := (List.getElem?_eq_some_iff.1 hi).1
    simp [this]
  rcases hl with rfl | rfl
  · unfold Bal.step at h
    simp only at h
    cases hi : s.nodes[i]? with
    | none => rw [hi] at h; cases h
    | some ps =>
      rw [hi] at h
      simp only at h
      obtain ⟨ps', h1, rfl⟩ := Option.map_eq_some_iff.1 h
      exact ⟨hf, fun j hj => List.getElem?_set_ne (Ne.symm hj), ps, ps', rfl, hset hi, fun _ => h1⟩
  · unfold Bal.step at h
    simp only at h
    split at h
    · cases h
    · cases hi : s.nodes[i]? with
      | none => rw [hi] at h; cases h
      | some ps =>
        rw [hi] at h
        simp only at h
        obtain ⟨ps', h1, rfl⟩ := Option.map_eq_some_iff.1 h
        exact ⟨hf, fun j hj => List.getElem?_set_ne (Ne.symm hj), ps, ps', rfl, hset hi, fun e => by cases e⟩

/-- In the example above the second step of the crossing exchange finds the call of the first in flight: both transfers are in flight. -/
theorem C158_arrives_example : ∃ s s', Bal.exec softP exDial (start [exCfg exU, exCfg exU] 1000) (exSends 0 "b" ++ exSends 1 "a") = some s ∧
    Bal.exec softP exDial s [.arrive 0 1, .arrive 1 1] = some s' ∧ s'.calls.map (fun c => (c.src, c.run, c.dst, c.id)) = [(0, 1, 1, "b"), (1, 1, 0, "a")] := by
  have hx : ((Bal.exec softP exDial (start [exCfg exU, exCfg exU] 1000) (exSends 0 "b" ++ exSends 1 "a")).bind fun s =>
      (Bal.exec softP exDial s [.arrive 0 1, .arrive 1 1]).map fun s' => s'.calls.map (fun c => (c.src, c.run, c.dst, c.id))) =
      some [(0, 1, 1, "b"), (1, 1, 0, "a")] := by decide +kernel
  obtain ⟨s, h1, h2⟩ := Option.bind_eq_some_iff.1 hx
  obtain ⟨s', h3, h4⟩ := Option.map_eq_some_iff.1 h2
  exact ⟨s, s', h1, h3, h4⟩

end Veri
