import Verif.Process.Model
/-
Inversion of the maintenance machine, and its invariants.
-/
set_option autoImplicit false
namespace Veri
namespace Proc
open Gencoder Store

/-- `instStep` as a relation. -/
inductive IStep (P : PEnv) (W : Bool) (now : Int64) (dt : Data) (acks : List Ack) (i : Inst) :
    Act → Data → List Ack → Inst → Prop
  | purge {k : Bytes} {e : Entry} : i.phase = .scanning → dt.dbMap.get? k = some e → k ∉ i.seen → isExpired e now = true →
      IStep P W now dt acks i (.purge k) { dt with dbMap := dt.dbMap.erase k } acks { i with seen := k :: i.seen }
  | meet {k : Bytes} {e : Entry} {key : DatumKey} : i.phase = .scanning → dt.dbMap.get? k = some e → k ∉ i.seen →
      isExpired e now = false → e.datum.key = some key →
      IStep P W now dt acks i (.meet k) dt acks { meetEntry P dt i e key with seen := k :: i.seen }
  | offer {rnd : F64} {e : Entry} : i.phase = .met e → F64.le 0 rnd = true → F64.lt rnd F64.one = true →
      (dt.alive = false ∨ (i.counter < i.limit ∧ P.o.ltD rnd i.fraction = true)) →
      (insertConfigFromExpireAt now.toUInt64 e.expireAt.toUInt64).ttl > 10 →
      IStep P W now dt acks i (.offer rnd) dt acks
        { i with phase := .sending ⟨e.datum, insertConfigFromExpireAt now.toUInt64 e.expireAt.toUInt64⟩ }
  | skip {rnd : F64} {e : Entry} : i.phase = .met e → F64.le 0 rnd = true → F64.lt rnd F64.one = true →
      ¬((dt.alive = false ∨ (i.counter < i.limit ∧ P.o.ltD rnd i.fraction = true)) ∧
        (insertConfigFromExpireAt now.toUInt64 e.expireAt.toUInt64).ttl > 10) →
      IStep P W now dt acks i (.offer rnd) dt acks { i with phase := .scanning }
  | send {x : Item} : i.phase = .sending x → i.chan.length < i.limit.toNat →
      IStep P W now dt acks i .send dt acks
        { i with phase := .scanning, chan := i.chan ++ [x], counter := i.counter + 1, sent := i.sent ++ [x] }
  | handover {x : Item} {c : Consumer} {order : List (SourceId × UInt64)} : i.phase = .sending x → i.consumer = some c →
      i.limit = 0 → c.cur = none → order.Perm i.diffMap →
      IStep P W now dt acks i (.handover order) dt acks
        { i with phase := .scanning, counter := i.counter + 1, sent := i.sent ++ [x],
                 consumer := some { c with cur := some (x, order) } }
  | endScan : i.phase = .scanning → (W = true ∨ ∀ p ∈ dt.dbMap, p.1 ∈ i.seen) →
      IStep P W now dt acks i .endScan (finish now dt i) acks { i with phase := .finished }
  | recv {x : Item} {xs : List Item} {c : Consumer} {order : List (SourceId × UInt64)} : i.consumer = some c →
      i.chan = x :: xs → c.cur = none → order.Perm i.diffMap →
      IStep P W now dt acks i (.recv order) dt acks
        { i with chan := xs, consumer := some { c with cur := some (x, order) } }
  | evict {c : Consumer} {x : Item} {id : SourceId} {count : UInt64} {rest : List (SourceId × UInt64)} {k : Bytes} :
      i.consumer = some c → c.cur = some (x, (id, count) :: rest) → (c.countMap.get? id).getD 0 < count →
      liveSource now (dt.sources.getD []) id = true →
      (dt.alive = false ∨ isEvictionOn P i.localInfo i.config c.deleted = true) → getKeyAsBytes x.datum = some k →
      IStep P W now dt acks i (.contact true) { dt with dbMap := dt.dbMap.erase k } (acks ++ [⟨id, x⟩])
        { i with
          consumer := some { cur := some (x, rest), countMap := c.countMap.set id ((c.countMap.get? id).getD 0 + 1),
                             deleted := c.deleted + 1 }
          evicted := i.evicted ++ [k] }
  | copy {c : Consumer} {x : Item} {id : SourceId} {count : UInt64} {rest : List (SourceId × UInt64)} :
      i.consumer = some c → c.cur = some (x, (id, count) :: rest) → (c.countMap.get? id).getD 0 < count →
      liveSource now (dt.sources.getD []) id = true → dt.alive = true →
      isEvictionOn P i.localInfo i.config c.deleted = false →
      IStep P W now dt acks i (.contact true) dt (acks ++ [⟨id, x⟩]) { i with consumer := some { c with cur := some (x, rest) } }
  | pass {c : Consumer} {x : Item} {id : SourceId} {count : UInt64} {rest : List (SourceId × UInt64)} {accepted : Bool} :
      i.consumer = some c → c.cur = some (x, (id, count) :: rest) →
      IStep P W now dt acks i (.contact accepted) dt acks { i with consumer := some { c with cur := some (x, rest) } }
  | next {c : Consumer} {x : Item} : i.consumer = some c → c.cur = some (x, []) →
      IStep P W now dt acks i .next dt acks { i with consumer := some { c with cur := none } }

theorem istep_of {P : PEnv} {W : Bool} {now : Int64} {dt dt' : Data} {acks acks' : List Ack} {i i' : Inst} {a : Act}
    (h : instStep P W now dt acks i a = some (dt', acks', i')) : IStep P W now dt acks i a dt' acks' i' := by
  cases a with
  | purge k =>
    simp only [instStep] at h
    split at h
    · rename_i e hp he
      split at h
      · rename_i hc
        simp only [Option.some.injEq, Prod.mk.injEq] at h
        obtain ⟨rfl, rfl, rfl⟩ := h
        exact .purge hp he hc.1 hc.2
      · cases h
    · cases h
  | meet k =>
    simp only [instStep] at h
    split at h
    · rename_i e hp he
      split at h
      · rename_i hc
        split at h
        · rename_i key hk
          simp only [Option.some.injEq, Prod.mk.injEq] at h
          obtain ⟨rfl, rfl, rfl⟩ := h
          exact .meet hp he hc.1 hc.2 hk
        · cases h
      · cases h
    · cases h
  | offer rnd =>
    simp only [instStep] at h
    split at h
    · rename_i e hp
      split at h
      · rename_i hr
        split at h
        · rename_i hc
          simp only [Option.some.injEq, Prod.mk.injEq] at h
          obtain ⟨rfl, rfl, rfl⟩ := h
          simp only [Bool.and_eq_true, Bool.or_eq_true, Bool.not_eq_true', decide_eq_true_eq] at hc
          exact .offer hp hr.1 hr.2 hc.1 hc.2
        · rename_i hc
          simp only [Option.some.injEq, Prod.mk.injEq] at h
          obtain ⟨rfl, rfl, rfl⟩ := h
          simp only [Bool.and_eq_true, Bool.or_eq_true, Bool.not_eq_true', decide_eq_true_eq] at hc
          exact .skip hp hr.1 hr.2 hc
      · cases h
    · cases h
  | send =>
    simp only [instStep] at h
    split at h
    · rename_i x hp
      split at h
      · rename_i hc
        simp only [Option.some.injEq, Prod.mk.injEq] at h
        obtain ⟨rfl, rfl, rfl⟩ := h
        exact .send hp hc
      · cases h
    · cases h
  | handover order =>
    simp only [instStep] at h
    split at h
    · rename_i x c hp hcn
      split at h
      · rename_i hc
        simp only [Option.some.injEq, Prod.mk.injEq] at h
        obtain ⟨rfl, rfl, rfl⟩ := h
        exact .handover hp hcn hc.1 hc.2.1 (List.isPerm_iff.1 hc.2.2)
      · cases h
    · cases h
  | endScan =>
    simp only [instStep] at h
    split at h
    · rename_i hp
      split at h
      · rename_i hc
        simp only [Option.some.injEq, Prod.mk.injEq] at h
        obtain ⟨rfl, rfl, rfl⟩ := h
        refine .endScan hp (hc.imp id fun h => ?_)
        intro p hp
        simpa using List.all_eq_true.1 h p hp
      · cases h
    · cases h
  | recv order =>
    simp only [instStep] at h
    split at h
    · rename_i c x xs hcn hch
      split at h
      · rename_i hc
        simp only [Option.some.injEq, Prod.mk.injEq] at h
        obtain ⟨rfl, rfl, rfl⟩ := h
        exact .recv hcn hch hc.1 (List.isPerm_iff.1 hc.2)
      · cases h
    · cases h
  | contact accepted =>
    simp only [instStep] at h
    split at h
    · rename_i c hcn
      split at h
      · rename_i x id count rest hcur
        unfold contact at h
        simp only at h
        split at h
        · rename_i hc
          simp only [Bool.and_eq_true, decide_eq_true_eq] at hc
          obtain ⟨⟨hc1, hc2⟩, rfl⟩ := hc
          split at h
          · rename_i hev
            simp only [Bool.or_eq_true, Bool.not_eq_true'] at hev
            split at h
            · cases h
            · rename_i k hk
              simp only [Option.some.injEq, Prod.mk.injEq] at h
              obtain ⟨rfl, rfl, rfl⟩ := h
              exact .evict hcn hcur hc1 hc2 hev hk
          · rename_i hev
            simp only [Bool.or_eq_true, Bool.not_eq_true', not_or, Bool.not_eq_false, Bool.not_eq_true] at hev
            simp only [Option.some.injEq, Prod.mk.injEq] at h
            obtain ⟨rfl, rfl, rfl⟩ := h
            exact .copy hcn hcur hc1 hc2 hev.1 hev.2
        · simp only [Option.some.injEq, Prod.mk.injEq] at h
          obtain ⟨rfl, rfl, rfl⟩ := h
          exact .pass hcn hcur
      · cases h
    · cases h
  | next =>
    simp only [instStep] at h
    split at h
    · rename_i c hcn
      split at h
      · rename_i x hcur
        simp only [Option.some.injEq, Prod.mk.injEq] at h
        obtain ⟨rfl, rfl, rfl⟩ := h
        exact .next hcn hcur
      · cases h
    · cases h

/-- A run that has just begun. -/
structure Fresh (P : PEnv) (now : Int64) (dt : Data) (infos : SourceId → Option DataInfo) (order : List SourceId) (i : Inst) : Prop where
  began : i.began = now
  config : dt.config = some i.config
  info : dt.getDataInfo = .ok i.localInfo
  plan : dataSourceDiffMap P infos order i.localInfo = (i.diffMap, i.limit)
  nFloat : i.nFloat = Stats.nFloat P.o P.s dt.n
  phase : i.phase = .scanning
  seen : i.seen = []
  met : i.met = []
  stats : i.stats = Stats.fresh P.o
  slots : i.slots = []
  chan : i.chan = []
  counter : i.counter = 0
  sent : i.sent = []
  consumer : i.consumer = if i.localInfo.n > 0 then some ⟨none, [], 0⟩ else none
  evicted : i.evicted = []
  size : 1000 ≤ i.size ∧ i.size < 2^63
  sizeEq : i.size = if dt.n.toNat < 2 ^ 63 then max 1000 dt.n.toNat else 1000

theorem begin_spec {P : PEnv} {now : Int64} {force : Bool} {infos : SourceId → Option DataInfo} {order : List SourceId}
    {dt dt' : Data} {o : Option Inst} (h : begin P now force infos order dt = .ok (dt', o)) :
    ∃ info, dt.getDataInfo = .ok info ∧ dt.sources.isSome = true ∧
    ((gate force now.toUInt64 dt.lastRunTimestamp dt.recentInsertCount (dataSourceDiffMap P infos order info).2 info.n = true ∧
        dt' = { dt with recentInsertCount := 0 } ∧ ∃ i, o = some i ∧ Fresh P now dt infos order i) ∨
     (gate force now.toUInt64 dt.lastRunTimestamp dt.recentInsertCount (dataSourceDiffMap P infos order info).2 info.n = false ∧
        dt' = { dt with timestamp := now.toUInt64, dirty := false } ∧ o = none)) := by
  unfold begin at h
  cases hi : dt.getDataInfo with
  | panic => rw [hi] at h; cases h
  | err e => rw [hi] at h; cases h
  | ok info =>
    rw [hi] at h
    simp only [Res.bind] at h
    cases hs : dt.sources with
    | none => rw [hs] at h; cases h
    | some m =>
      rw [hs] at h
      simp only [Res.ofOption] at h
      cases hc : dt.config with
      | none => rw [hc] at h; cases h
      | some config =>
        rw [hc] at h
        simp only at h
        refine ⟨info, rfl, rfl, ?_⟩
        split at h
        · rename_i hg
          simp only [Res.ok.injEq, Prod.mk.injEq] at h
          refine .inl ⟨hg, h.1.symm, _, h.2.symm, ?_⟩
          exact ⟨rfl, hc, hi, rfl, rfl, rfl, rfl, rfl, rfl, rfl, rfl, rfl, rfl, rfl, rfl, by simp only; split <;> omega, rfl⟩
        · rename_i hg
          simp only [Res.ok.injEq, Prod.mk.injEq] at h
          exact .inr ⟨by simpa using hg, h.1.symm, h.2.symm⟩

/-- `step` as a relation. -/
inductive SStep (P : PEnv) (W : Bool) (s : PS) : Label → PS → Prop
  | tick {now : Int64} : s.now ≤ now → SStep P W s (.tick now) { s with now := now }
  | setSources {m : AMap SourceId Int} : SStep P W s (.setSources m) { s with dt := { s.dt.initData with sources := some m } }
  | runOff {infos : SourceId → Option DataInfo} {order : List SourceId} :
      SStep P W s (.run infos order) { s with dt := { s.dt with timestamp := s.now.toUInt64, dirty := false } }
  | run {infos : SourceId → Option DataInfo} {order : List SourceId} {i : Inst} :
      order.Perm (liveSources s.now (s.dt.sources.getD [])) → Fresh P s.now s.dt infos order i →
      SStep P W s (.run infos order) { s with dt := { s.dt with recentInsertCount := 0 }, insts := s.insts ++ [i] }
  | closeBegin : s.closer = .idle → SStep P W s .closeBegin
      { s with dt := { s.dt with alive := false },
               closer := if (liveSources s.now (s.dt.sources.getD [])).isEmpty then .done else .loop }
  | closeDone {infos : SourceId → Option DataInfo} {order : List SourceId} : s.closer = .loop → s.dt.n = 0 →
      SStep P W s (.closeCheck infos order) { s with closer := .done }
  | closeRun {infos : SourceId → Option DataInfo} {order : List SourceId} {i : Inst} : s.closer = .loop → s.dt.n ≠ 0 →
      order.Perm (liveSources s.now (s.dt.sources.getD [])) → Fresh P s.now s.dt infos order i →
      SStep P W s (.closeCheck infos order)
        { s with dt := { s.dt with recentInsertCount := 0 }, insts := s.insts ++ [i], closer := .running s.insts.length }
  | closeReturn {j : Nat} {i : Inst} : s.closer = .running j → s.insts[j]? = some i → i.phase = .finished →
      SStep P W s .closeReturn { s with closer := .loop }
  | act {j : Nat} {i i' : Inst} {a : Act} {dt : Data} {acks : List Ack} : s.insts[j]? = some i →
      IStep P W s.now s.dt s.acks i a dt acks i' →
      SStep P W s (.act j a) { s with dt := dt, acks := acks, insts := s.insts.set j i' }
  | write {datum : Datum} {config : Option InsertConfig} {out : Data.InsertOut Unit} : W = true →
      Data.insert s.now [] (fun _ _ _ w => (w, none)) s.dt () (some datum) config = .ok out →
      SStep P W s (.write datum config) { s with dt := out.data }
  | delete {datum : Datum} {dt : Data} : W = true → Data.delete s.dt (some datum) = .ok dt →
      SStep P W s (.delete datum) { s with dt := dt }

theorem sstep_of {P : PEnv} {W : Bool} {s s' : PS} {l : Label} (h : step P W s l = some s') : SStep P W s l s' := by
  cases l with
  | tick now =>
    simp only [step] at h
    split at h
    · rename_i hc; cases h; exact .tick hc
    · cases h
  | setSources m => simp only [step] at h; cases h; exact .setSources
  | run infos order =>
    simp only [step] at h
    split at h
    · rename_i hc
      split at h
      · rename_i dt o hb
        cases h
        obtain ⟨info, _, _, ⟨_, rfl, i, rfl, hf⟩ | ⟨_, rfl, rfl⟩⟩ := begin_spec hb
        · exact .run (List.isPerm_iff.1 hc) hf
        · simpa using (SStep.runOff (P := P) (W := W) (s := s) (infos := infos) (order := order))
      · cases h
    · cases h
  | closeBegin =>
    simp only [step] at h
    split at h
    · rename_i hc; cases h; exact .closeBegin hc
    · cases h
  | closeCheck infos order =>
    simp only [step] at h
    split at h
    · rename_i hc
      split at h
      · rename_i hn; cases h; exact .closeDone hc hn
      · rename_i hn
        split at h
        · rename_i hp
          split at h
          · rename_i dt i hb
            cases h
            obtain ⟨info, _, _, ⟨_, rfl, i', hi', hf⟩ | ⟨_, rfl, h'⟩⟩ := begin_spec hb
            · cases hi'
              exact .closeRun hc hn (List.isPerm_iff.1 hp) hf
            · cases h'
          · cases h
        · cases h
    · cases h
  | closeReturn =>
    simp only [step] at h
    split at h
    · rename_i j hc
      split at h
      · rename_i i hi
        split at h
        · rename_i hf; cases h; exact .closeReturn hc hi hf
        · cases h
      · cases h
    · cases h
  | act j a =>
    simp only [step] at h
    split at h
    · rename_i i hi
      split at h
      · rename_i dt acks i' hs
        cases h
        exact .act hi (istep_of hs)
      · cases h
    · cases h
  | write datum config =>
    simp only [step] at h
    split at h
    · rename_i hW
      split at h
      · rename_i out ho; cases h; exact .write hW ho
      · cases h
    · cases h
  | delete datum =>
    simp only [step] at h
    split at h
    · rename_i hW
      split at h
      · rename_i dt ho; cases h; exact .delete hW ho
      · cases h
    · cases h

/-- Induction over executions. -/
theorem reach_inv {P : PEnv} {W : Bool} {s0 : PS} (I : PS → Prop) (h0 : I s0)
    (hs : ∀ (s s' : PS) (l : Label), Reach P W s0 s → I s → SStep P W s l s' → I s') {s : PS} (h : Reach P W s0 s) : I s := by
  induction h with
  | refl => exact h0
  | step l hr hst ih => exact hs _ _ l hr ih (sstep_of hst)

/-- Members of a list with one element replaced. -/
theorem mem_set_list {α : Type} {l : List α} {j : Nat} {a x : α} (h : x ∈ l.set j a) : x = a ∨ x ∈ l := by
  rcases List.mem_or_eq_of_mem_set h with h | h
  · exact .inr h
  · exact .inl h

end Proc
end Veri
