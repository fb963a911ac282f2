import Verif.Node.Drain
/-
C86, C87, C88: what can make the process panic besides inserts (C71) and searches (C24, C73).  C93, C94: the reply of a join and
the health endpoints.
-/
set_option autoImplicit false
namespace Veri
open Net

/-! ### C86 -/

namespace Net

theorem serialize_nil : serialize [] = "" := by decide +kernel

theorem join_eq_empty : ∀ {l : List String}, join l = "" → l = [] ∨ "" ∈ l
  | [], _ => Or.inl rfl
  | [a], h => by
    simp only [join] at h
    exact Or.inr (by simp [h])
  | a :: b :: l, h => by
    exfalso
    have := congrArg String.toList h
    have hc : ",".toList = [','] := by decide +kernel
    simp [join, String.toList_append, hc] at this

theorem serialize_eq_empty {l : List String} (h : serialize l = "") : l = [] ∨ "" ∈ l := by
  rcases join_eq_empty h with h | h
  · left
    have := (sortStrings_perm l).length_eq
    rw [h] at this
    exact List.eq_nil_of_length_eq_zero this.symm
  · exact Or.inr (mem_sortStrings.mp h)

/-- The table has no record under the empty identity. -/
def NoEmpty (n : Node) : Prop := n.peers.get? "" = none

theorem step_noEmpty {X : DS.XEnv} {s s' : NS} {e : Ev} (hn : NoEmpty s.node) (h : step X s e = some s')
    (he : ∀ p, e = .announce p → p.addressList ≠ [] ∧ "" ∉ p.addressList) : NoEmpty s'.node := by
  unfold NoEmpty at *
  cases e with
  | tick now =>
    simp only [step] at h
    split at h <;> cases h
    exact hn
  | announce p =>
    simp only [step, Option.some.injEq] at h
    subst h
    obtain ⟨h1, h2⟩ := he p rfl
    unfold Net.announce
    split
    · exact hn
    · rename_i id q hc
      have hid := (announceCheck_some hc).2.2.1
      injection hid with hid
      simp only [putPeer]
      rw [AMap.get?_set_ne]
      · exact hn
      · rw [hid]
        intro e0
        rcases serialize_eq_empty e0 with h | h
        · exact h1 h
        · exact h2 h
  | sync ps =>
    simp only [step] at h
    split at h
    · rename_i n o hs
      cases h
      unfold syncWithPeers at hs
      cases hl : syncLoop X s.now ps s.node with
      | ok r =>
        rw [hl] at hs
        simp only [Res.bind, Res.ok.injEq, Prod.mk.injEq] at hs
        obtain ⟨rfl, -⟩ := hs
        obtain ⟨t, sv, m, he, ht⟩ := syncLoop_eff ps (n' := r.1) (out := r.2) hl
        simp only [he]
        cases hg : t.get? "" with
        | none => rfl
        | some x => rw [ht _ _ hg] at hn; cases hn
      | err e => rw [hl] at hs; cases hs
      | panic => rw [hl] at hs; cases hs
    · cases h
  | learn a =>
    simp only [step, Option.some.injEq] at h
    subst h
    unfold Net.learn
    split
    · exact hn
    · split <;> exact hn
  | close =>
    simp only [step, Option.some.injEq] at h
    subst h
    exact hn
  | janitor id =>
    simp only [step] at h
    split at h
    · split at h <;> cases h
      simp only
      rw [AMap.get?_erase]
      split
      · rfl
      · exact hn
    · cases h

theorem run_noEmpty {X : DS.XEnv} : ∀ (es : List Ev) {s s' : NS}, NoEmpty s.node → run X s es = some s' →
    (∀ p, Ev.announce p ∈ es → p.addressList ≠ [] ∧ "" ∉ p.addressList) → NoEmpty s'.node
  | [], s, s', hn, h, _ => by cases h; exact hn
  | e :: es, s, s', hn, h, he => by
    rw [run] at h
    cases hs : step X s e with
    | none => rw [hs] at h; cases h
    | some s1 =>
      rw [hs] at h
      refine run_noEmpty es (step_noEmpty hn hs ?_) h (fun p hp => he p (List.mem_cons_of_mem _ hp))
      intro p hp
      exact he p (hp ▸ List.mem_cons_self)

end Net

/-- C86, full statement: no join or add-peer request, with a record or without, makes the node panic, whatever it was told
before.  FALSE of the code. -/
def C86_statement : Prop := ∀ (X : DS.XEnv), X.Ok → ∀ (port : UInt32) (adv sv : List String) (now : Int) (es : List Ev) (s : NS),
  run X ⟨now, newNode port adv sv []⟩ es = some s → isRecent s.now 0 = false → ∀ p : Option Peer, announcePtr X s.now s.node p ≠ .panic

/-- C86, exactly: a request makes the node panic if it comes without a record, the node has an address, and the node holds
a record with no addresses (or its clock is within five minutes of 1970). -/
theorem C86_exact (X : DS.XEnv) (now : Int) (n : Node) (p : Option Peer) :
    announcePtr X now n p = .panic ↔
      p = none ∧ serialize (addresses n) ≠ "" ∧ ((peerAt now n.peers "").isSome = true ∨ isRecent now 0 = true) := by
  cases p with
  | some p => simp [announcePtr]
  | none =>
    unfold announcePtr
    rw [serialize_nil]
    by_cases h : serialize (addresses n) = ""
    · simp [h]
    · rw [if_neg h]
      cases peerAt now n.peers "" with
      | some q => simp [h]
      | none =>
        by_cases hr : isRecent now 0 = true <;> simp [h, hr]

/-- C86, the part that holds: as long as every record announced has addresses, and none of them is empty, no request makes the
node panic. -/
theorem C86_partial (X : DS.XEnv) (port : UInt32) (adv sv : List String) (now : Int) (es : List Ev) (s : NS)
    (h : run X ⟨now, newNode port adv sv []⟩ es = some s) (hr : isRecent s.now 0 = false)
    (he : ∀ p, Ev.announce p ∈ es → p.addressList ≠ [] ∧ "" ∉ p.addressList) (p : Option Peer) :
    announcePtr X s.now s.node p ≠ .panic := by
  intro hp
  obtain ⟨-, -, h1 | h1⟩ := (C86_exact X s.now s.node p).mp hp
  · have := run_noEmpty es (s := ⟨now, newNode port adv sv []⟩) rfl h he
    unfold NoEmpty at this
    rw [peerAt, this] at h1
    exact absurd h1 (by simp)
  · rw [hr] at h1; cases h1

/-- C86, counterexample: two requests, one with a record that has no addresses and one without a record. -/
theorem C86_fails : ¬ C86_statement := by
  intro h
  have h2 : ((run (DS.toy 0) ⟨exNow, newNode 7000 ["me:7000"] [] []⟩ [.announce ⟨"", [], 1700000000, [], []⟩]).any fun (s : NS) =>
      decide (isRecent s.now 0 = false ∧ (peerAt s.now s.node.peers "").isSome = true ∧ serialize (addresses s.node) ≠ "")) = true := by
    decide +kernel
  obtain ⟨s, h3, h4⟩ := DS.any_some h2
  have h4 := of_decide_eq_true h4
  exact h _ (DS.toy_ok 0) _ _ _ _ _ s h3 h4.1 none ((C86_exact _ _ _ _).mpr ⟨rfl, h4.2.2, Or.inl h4.2.1⟩)

example : ∃ s, run (DS.toy 0) ⟨exNow, newNode 7000 ["me:7000"] [] []⟩ [.announce (exPeer 1700000000), .sync [], .tick (exNow + minute)] = some s ∧
    isRecent s.now 0 = false ∧ s.node.peers ≠ [] ∧ (exPeer 1700000000).addressList ≠ [] ∧ "" ∉ (exPeer 1700000000).addressList := by
  have : ((run (DS.toy 0) ⟨exNow, newNode 7000 ["me:7000"] [] []⟩ [.announce (exPeer 1700000000), .sync [], .tick (exNow + minute)]).any
    fun (s : NS) => decide (isRecent s.now 0 = false ∧ s.node.peers ≠ [])) = true := by decide +kernel
  obtain ⟨s, h1, h2⟩ := DS.any_some this
  have h2 := of_decide_eq_true h2
  exact ⟨s, h1, h2.1, h2.2, by decide +kernel, by decide +kernel⟩

/-! ### C87 -/

namespace DS

/-- The sources of a data set that have not expired: the keys of `dt.Sources.Items()`. -/
def liveSources (now : Int) (dt : Data) : List SourceId :=
  match dt.sources with
  | some m => (m.filter fun p => decide (now ≤ p.2)).map (·.1)
  | none => []

/-- In this order a source that does not answer is asked before one that has data. -/
def Silent (info : SourceId → Option DataInfo) (order : List SourceId) : Prop :=
  ∃ pre id post, order = pre ++ id :: post ∧ info id = none ∧ ∀ j ∈ pre, ∃ i, info j = some i ∧ i.n = 0

theorem activeSources_panic {info : SourceId → Option DataInfo} : ∀ {order : List SourceId},
    activeSources info order = .panic ↔ Silent info order
  | [] => by
    simp only [activeSources, Silent]
    constructor
    · intro h; cases h
    · rintro ⟨pre, id, post, h, -⟩
      exact absurd h.symm (by simp)
  | x :: xs => by
    unfold activeSources
    cases hi : info x with
    | none => exact ⟨fun _ => ⟨[], x, xs, rfl, hi, by simp⟩, fun _ => rfl⟩
    | some i =>
      simp only
      split
      · rename_i hp
        constructor
        · intro h; cases h
        · rintro ⟨pre, id, post, h, hn, hpre⟩
          cases pre with
          | nil =>
            simp only [List.nil_append, List.cons.injEq] at h
            rw [← h.1, hi] at hn
            cases hn
          | cons y pre =>
            simp only [List.cons_append, List.cons.injEq] at h
            obtain ⟨i', h1, h2⟩ := hpre y (by simp)
            rw [← h.1, hi, Option.some.injEq] at h1
            rw [h1, h2] at hp
            exact absurd hp (by decide)
      · rename_i hp
        have hz : i.n = 0 := by
          have : ¬ 0 < i.n.toNat := fun e => hp (UInt64.lt_iff_toNat_lt.mpr e)
          exact UInt64.toNat_inj.mp (by have : (0 : UInt64).toNat = 0 := rfl; omega)
        rw [activeSources_panic (order := xs)]
        constructor
        · rintro ⟨pre, id, post, h, hn, hpre⟩
          refine ⟨x :: pre, id, post, by rw [h]; rfl, hn, ?_⟩
          intro j hj
          rcases List.mem_cons.mp hj with rfl | hj
          · exact ⟨i, hi, hz⟩
          · exact hpre j hj
        · rintro ⟨pre, id, post, h, hn, hpre⟩
          cases pre with
          | nil =>
            simp only [List.nil_append, List.cons.injEq] at h
            rw [← h.1, hi] at hn
            cases hn
          | cons y pre =>
            simp only [List.cons_append, List.cons.injEq] at h
            exact ⟨pre, id, post, h.2, hn, fun j hj => hpre j (List.mem_cons_of_mem _ hj)⟩

theorem activeSources_noErr {info : SourceId → Option DataInfo} : ∀ {order : List SourceId} {e : Err},
    activeSources info order ≠ .err e
  | [], e => by simp [activeSources]
  | x :: xs, e => by
    unfold activeSources
    cases info x with
    | none => simp
    | some i =>
      simp only
      split
      · simp
      · exact activeSources_noErr

theorem inactive_panic {now : Int} {info : String → SourceId → Option DataInfo} {so : String → List SourceId} {m : DL} :
    ∀ {ks : List String}, inactive now info so m ks = .panic ↔
      ∃ k ∈ ks, ∃ s, lookup now m k = some s ∧ s.data.n = 0 ∧ Silent (info k) (so k)
  | [] => by simp [inactive]
  | k :: ks => by
    have ih := inactive_panic (now := now) (info := info) (so := so) (m := m) (ks := ks)
    have herr : ∀ (l : List String) (e : Err), inactive now info so m l ≠ .err e := by
      intro l
      induction l with
      | nil => intro e; simp [inactive]
      | cons k l ih =>
        intro e
        unfold inactive
        cases lookup now m k with
        | none => exact ih e
        | some s =>
          simp only
          unfold checkIfActive
          split
          · cases hr : inactive now info so m l with
            | ok r => simp [Res.bind]
            | err e' => exact absurd hr (ih e')
            | panic => simp [Res.bind]
          · cases ha : activeSources (info k) (so k) with
            | ok b =>
              cases hr : inactive now info so m l with
              | ok r => simp [Res.bind]
              | err e' => exact absurd hr (ih e')
              | panic => simp [Res.bind]
            | err e' => exact absurd ha activeSources_noErr
            | panic => simp [Res.bind]
    unfold inactive
    cases hl : lookup now m k with
    | none =>
      simp only [ih, List.mem_cons]
      constructor
      · rintro ⟨k', h1, h2⟩; exact ⟨k', Or.inr h1, h2⟩
      · rintro ⟨k', rfl | h1, h2⟩
        · obtain ⟨s, h2, -⟩ := h2
          rw [hl] at h2; cases h2
        · exact ⟨k', h1, h2⟩
    | some s =>
      simp only
      unfold checkIfActive
      by_cases hn : s.data.n > 0
      · rw [if_pos hn]
        have h0 : s.data.n ≠ 0 := fun e => by rw [e] at hn; exact absurd hn (by decide)
        have : ((Res.ok true : Res Bool).bind fun a => (inactive now info so m ks).bind fun r => .ok (if a then r else k :: r)) = .panic ↔
            inactive now info so m ks = .panic := by
          cases inactive now info so m ks <;> simp [Res.bind]
        rw [this, ih]
        constructor
        · rintro ⟨k', h1, h2⟩; exact ⟨k', List.mem_cons_of_mem _ h1, h2⟩
        · rintro ⟨k', h1, s', h2, h3, h4⟩
          rcases List.mem_cons.mp h1 with rfl | h1
          · rw [hl, Option.some.injEq] at h2
            rw [← h2] at h3
            exact absurd h3 h0
          · exact ⟨k', h1, s', h2, h3, h4⟩
      · rw [if_neg hn]
        have hz : s.data.n = 0 := by
          have : ¬ 0 < s.data.n.toNat := fun e => hn (UInt64.lt_iff_toNat_lt.mpr e)
          exact UInt64.toNat_inj.mp (by have : (0 : UInt64).toNat = 0 := rfl; omega)
        cases ha : activeSources (info k) (so k) with
        | err e => exact absurd ha activeSources_noErr
        | panic =>
          simp only [Res.bind, true_iff]
          exact ⟨k, by simp, s, hl, hz, activeSources_panic.mp ha⟩
        | ok b =>
          have : ((Res.ok b : Res Bool).bind fun a => (inactive now info so m ks).bind fun r => .ok (if a then r else k :: r)) = .panic ↔
              inactive now info so m ks = .panic := by
            cases inactive now info so m ks <;> simp [Res.bind]
          rw [this, ih]
          constructor
          · rintro ⟨k', h1, h2⟩; exact ⟨k', List.mem_cons_of_mem _ h1, h2⟩
          · rintro ⟨k', h1, s', h2, h3, h4⟩
            rcases List.mem_cons.mp h1 with rfl | h1
            · rw [activeSources_panic.mpr h4] at ha
              cases ha
            · exact ⟨k', h1, s', h2, h3, h4⟩

end DS

/-- C87, full statement: whatever a node was told, and whichever peers answer, the periodic clean-up does not panic.  FALSE of
the code. -/
def C87_statement : Prop := ∀ (X : DS.XEnv), X.Ok → ∀ (port : UInt32) (adv sv : List String) (now : Int) (es : List Ev) (s : NS)
  (info : String → SourceId → Option DataInfo) (so : String → List SourceId) (ks : List String),
  run X ⟨now, newNode port adv sv []⟩ es = some s → ks.Perm (DS.names s.now s.node.dataset) →
  (∀ k x, DS.lookup s.now s.node.dataset k = some x → (so k).Perm (DS.liveSources s.now x.data)) →
  DS.reloadRuns s.now info so ks s.node.dataset ≠ .panic

/-- C87, exactly: it panics if a data set had no entries at its last count, and one of its peers does not answer while
those asked before have none either. -/
theorem C87_exact (now : Int) (info : String → SourceId → Option DataInfo) (so : String → List SourceId) (ks : List String)
    (m : DS.DL) : DS.reloadRuns now info so ks m = .panic ↔
      ∃ k ∈ ks, ∃ s, DS.lookup now m k = some s ∧ s.data.n = 0 ∧ DS.Silent (info k) (so k) := by
  rw [← DS.inactive_panic, DS.reloadRuns]
  cases DS.inactive now info so m ks <;> simp [Res.bind]

/-- C87, the part that holds: if all peers that serve an empty data set answer, the clean-up does not panic. -/
theorem C87_partial (now : Int) (info : String → SourceId → Option DataInfo) (so : String → List SourceId) (ks : List String)
    (m : DS.DL) (h : ∀ k s, DS.lookup now m k = some s → s.data.n = 0 → ∀ id ∈ so k, (info k id).isSome = true) :
    DS.reloadRuns now info so ks m ≠ .panic := by
  intro hp
  obtain ⟨k, -, s, h1, h2, pre, id, post, h3, h4, -⟩ := (C87_exact now info so ks m).mp hp
  have := h k s h1 h2 id (by rw [h3]; simp)
  rw [h4] at this
  cases this

namespace Net
/-- A peer that serves the data set "a". -/
def exServer (ts : UInt64) : Peer := ⟨"", ["b:1"], ts, [], [DS.exA 1]⟩
end Net

/-- C87, counterexample: a peer announces an empty data set, the node learns of it, and then the peer does not answer. -/
theorem C87_fails : ¬ C87_statement := by
  intro h
  have h2 : ((run (DS.toy 0) ⟨exNow, newNode 7000 ["me:7000"] [] []⟩ [.announce (exServer 1700000000), .sync [(exServer 1700000000, [])]]).any
      fun (s : NS) => decide (DS.names s.now s.node.dataset = ["a"] ∧
        (DS.lookup s.now s.node.dataset "a").any (fun (x : DS.Slot) => decide (DS.liveSources s.now x.data = ["b:1"] ∧ x.data.n = 0)))) = true := by
    decide +kernel
  obtain ⟨s, h3, h4⟩ := DS.any_some h2
  have h4 := of_decide_eq_true h4
  obtain ⟨h5, h6⟩ := h4
  obtain ⟨x, h7, h8⟩ := DS.any_some h6
  have h8 := of_decide_eq_true h8
  refine h _ (DS.toy_ok 0) _ _ _ _ _ s (fun _ _ => none)
    (fun k => match DS.lookup s.now s.node.dataset k with | some x => DS.liveSources s.now x.data | none => []) ["a"] h3 (by rw [h5]) ?_ ?_
  · intro k x hx
    simp [hx]
  · refine (C87_exact _ _ _ _ _).mpr ⟨"a", by simp, x, h7, h8.2, [], "b:1", [], ?_, rfl, by simp⟩
    simp [h7, h8.1]

example : (DS.reloadRuns 5 (fun _ _ => some ⟨"", 0, 0, [], [], 0, 0, 0, 0, false, 0, false, 0⟩) (fun _ => ["b:1"]) ["a", "b"] DS.exList ≠ .panic) ∧
    (DS.lookup 5 DS.exList "a").isSome = true := by
  refine ⟨C87_partial _ _ _ _ _ (fun _ _ _ _ _ _ => rfl), by decide +kernel⟩

/-! ### C88 -/

namespace Net

/-- node/node.go:347-367, one turn of the loop over the data sets in `Info`, which the periodic task prints.  If the name is
not found `dt` is nil, and line 356 reads a field of it; a nil `Sources` panics in `Items`.  The sources are asked, but an
answer that is missing is allowed for (line 361). -/
def infoTurn (now : Int) (m : DS.DL) (name : String) : Res Unit :=
  match DS.getNoCreate now m name with
  | .ok dt => dt.getDataInfo.bind fun _ => (Res.ofOption dt.sources).bind fun _ => .ok ()
  | .err _ => .panic
  | .panic => .panic

end Net

namespace DS

/-- Every data set has been initialized. -/
def Inited (m : DL) : Prop := ∀ k s, m.get? k = some s → s.data.sources ≠ none

theorem inited_set {m : DL} (h : Inited m) {k : String} {s : Slot} (hs : s.data.sources ≠ none) : Inited (m.set k s) := by
  intro k' s' h'
  rw [AMap.get?_set] at h'
  split at h'
  · injection h' with h'; rw [← h']; exact hs
  · exact h _ _ h'

theorem inited_newData (c : DataConfig) : (Data.newData c).sources ≠ none := by
  simp [Data.newData, Data.newPreData, Data.initData]

theorem inited_create {now : Int} {m m' : DL} {c : DataConfig} (hw : WF m) (hi : Inited m)
    (h : createIfNotExists now m c = .ok m') : Inited m' := by
  cases hl : lookup now m c.name with
  | none =>
    rw [create_new hl] at h
    cases h
    exact inited_set hi (inited_newData c)
  | some s =>
    obtain ⟨c0, h0, -⟩ := hw.2 _ _ (lookup_some.mp hl).1
    rw [create_old hl h0] at h
    cases h
    split
    · refine inited_set hi ?_
      have := hi _ _ (lookup_some.mp hl).1
      exact this
    · exact hi

theorem inited_get {X : XEnv} {now : Int} {m m' : DL} {name : String} {d : Data} (hw : WF m) (hi : Inited m)
    (h : get X now m name = .ok (m', d)) : Inited m' := by
  cases hl : lookup now m name with
  | none =>
    rw [get_new hl] at h
    cases h
    exact inited_set (inited_set hi (inited_newData _)) (inited_newData _)
  | some s =>
    obtain ⟨c0, h0, -⟩ := hw.2 _ _ (lookup_some.mp hl).1
    rw [get_old hl h0] at h
    cases h
    refine inited_set hi ?_
    have := hi _ _ (lookup_some.mp hl).1
    exact this

theorem inited_step {X : XEnv} {s s' : DState} {l : Label} (hw : WF s.list) (hi : Inited s.list) (h : step X s l = some s') :
    Inited s'.list := by
  cases step_eff hw h with
  | tick _ he => rw [he]; exact hi
  | create h0 h1 h2 _ => exact inited_get h1 (inited_create hw hi h0) h2
  | use h1 _ => exact inited_get hw hi h1
  | delete he =>
    rw [he]
    intro k s0 hk
    rw [AMap.get?_erase] at hk
    split at hk
    · cases hk
    · exact hi _ _ hk
  | janitor he =>
    rw [he]
    intro k s0 hk
    simp only [janitor] at hk
    rw [get?_filter hw.1] at hk
    exact hi k s0 (Option.filter_eq_some_iff.mp hk).1
  | reload he _ =>
    intro k s0 hk
    rcases reloadRuns_spec he k with h1 | ⟨h1, -⟩
    · rw [h1] at hk; exact hi _ _ hk
    · rw [h1] at hk; cases hk
  | walkBegin _ he => rw [he]; exact hi
  | walkOpen _ _ _ he => rw [he]; exact hi
  | walkStep _ h1 _ _ => exact inited_get hw hi h1
  | walkFlush _ _ _ _ he => rw [he]; exact hi
  | loadBegin he => rw [he]; exact hi
  | loadRead he => rw [he]; exact hi
  | loadSkip he => rw [he]; exact hi
  | loadLine h1 _ _ => exact inited_create hw hi h1
  | loadEnd he => rw [he]; exact hi

theorem inited_reach {X : XEnv} {s0 s : DState} (hw : WF s0.list) (hi : Inited s0.list) (h : Reach X s0 s) : Inited s.list := by
  induction h with
  | refl => exact hi
  | step l h0 hs ih => exact inited_step (reach_wf hw h0) ih hs

end DS

/-- C88, full statement: the periodic report does not panic, whatever happens to the data sets while it is made.  `s1` is when
the report takes the names, `s2` when it comes to this one.  FALSE of the code. -/
def C88_statement : Prop := ∀ (X : DS.XEnv), X.Ok → ∀ (now : Int) (file : Bytes) (s1 s2 : DS.DState) (name : String),
  DS.Reach X (DS.fresh now file) s1 → name ∈ DS.names s1.now s1.list → DS.Reach X s1 s2 →
  infoTurn s2.now s2.list name ≠ .panic

/-- C88, exactly: it panics if the data set is no longer there. -/
theorem C88_exact (X : DS.XEnv) (now : Int) (file : Bytes) (s : DS.DState) (name : String) (h : DS.Reach X (DS.fresh now file) s) :
    infoTurn s.now s.list name = .panic ↔ DS.lookup s.now s.list name = none := by
  have hw := DS.reach_wf DS.wf_nil h
  have hi := DS.inited_reach DS.wf_nil (by intro k s h; simp [DS.fresh] at h) h
  unfold infoTurn DS.getNoCreate
  cases hl : DS.lookup s.now s.list name with
  | none => simp
  | some x =>
    obtain ⟨c, hc, -⟩ := hw.2 _ _ (DS.lookup_some.mp hl).1
    have := hi _ _ (DS.lookup_some.mp hl).1
    cases hs : x.data.sources with
    | none => exact absurd hs this
    | some m => simp [Data.getDataInfo, hc, Res.bind, hs, Res.ofOption]

/-- C88, the part that holds: while the data set is still listed the report gets past it. -/
theorem C88_partial (X : DS.XEnv) (now : Int) (file : Bytes) (s : DS.DState) (name : String) (h : DS.Reach X (DS.fresh now file) s)
    (hl : name ∈ DS.names s.now s.list) : infoTurn s.now s.list name = .ok () := by
  have hw := DS.reach_wf DS.wf_nil h
  have hs := (DS.mem_names hw.1).mp hl
  have hne : infoTurn s.now s.list name ≠ .panic := fun e => by
    rw [(C88_exact X now file s name h).mp e] at hs; cases hs
  cases hi : infoTurn s.now s.list name with
  | ok u => rfl
  | panic => exact absurd hi hne
  | err e =>
    exfalso
    unfold infoTurn at hi
    cases hg : DS.getNoCreate s.now s.list name with
    | err e => rw [hg] at hi; cases hi
    | panic => rw [hg] at hi; cases hi
    | ok dt =>
      rw [hg] at hi
      cases hc : dt.config <;> cases hd : dt.sources <;>
        simp [Data.getDataInfo, hc, hd, Res.bind, Res.ofOption] at hi

/-- C88: a data set that another goroutine has put in the list and not yet initialized (data/dataset.go:111-114) makes the report
panic too. -/
theorem C88_young (now : Int) (m : DS.DL) (c : DataConfig) (e : Option Int) (h : DS.live now ⟨Data.newPreData c, e⟩ = true) :
    infoTurn now (m.set c.name ⟨Data.newPreData c, e⟩) c.name = .panic := by
  unfold infoTurn DS.getNoCreate
  rw [DS.lookup_set_self, if_pos h]
  rfl

/-- C88, counterexample: a client deletes the data set in between. -/
theorem C88_fails : ¬ C88_statement := by
  intro h
  have h1 : ((DS.exec (DS.toy 0) (DS.fresh 0 []) [.use "a"]).any fun (s1 : DS.DState) => decide ("a" ∈ DS.names s1.now s1.list) &&
      (DS.exec (DS.toy 0) s1 [.delete "a"]).any fun (s2 : DS.DState) => decide (DS.lookup s2.now s2.list "a" = none)) = true := by
    decide +kernel
  obtain ⟨s1, h2, h3⟩ := DS.any_some h1
  rw [Bool.and_eq_true] at h3
  obtain ⟨s2, h4, h5⟩ := DS.any_some h3.2
  have r1 := DS.exec_reach _ h2
  have r2 := DS.exec_reach _ h4
  exact h _ (DS.toy_ok 0) 0 [] s1 s2 "a" r1 (of_decide_eq_true h3.1) r2
    ((C88_exact _ _ _ _ _ (DS.reach_trans r1 r2)).mpr (of_decide_eq_true h5))

example : ∃ s, DS.Reach (DS.toy 0) (DS.fresh 0 []) s ∧ "a" ∈ DS.names s.now s.list := by
  have h1 : ((DS.exec (DS.toy 0) (DS.fresh 0 []) [.use "a"]).any fun (s1 : DS.DState) => decide ("a" ∈ DS.names s1.now s1.list)) = true := by
    decide +kernel
  obtain ⟨s1, h2, h3⟩ := DS.any_some h1
  exact ⟨s1, DS.exec_reach _ h2, of_decide_eq_true h3⟩

/-! ### C93 -/

namespace Net

theorem dropWhile_append_stop {α : Type} {p : α → Bool} : ∀ (l : List α) (a : α) (r : List α), (∀ x ∈ l, p x = true) → p a = false →
    (l ++ a :: r).dropWhile p = a :: r
  | [], a, r, _, ha => by simp [ha]
  | x :: l, a, r, h, ha => by
    rw [List.cons_append, List.dropWhile_cons, if_pos (h x (by simp))]
    exact dropWhile_append_stop l a r (fun y hy => h y (by simp [hy])) ha

/-- An address without the brackets that go with IPv6. -/
def unbracket (host : String) : String := String.ofList (host.toList.filter fun c => c ≠ '[' ∧ c ≠ ']')

end Net

/-- C93: the reply to a join is the host part of the address the request came from: what is before the last colon.  A loopback
address is reported as "localhost", and one of at most one byte as no address. -/
theorem C93_reply (loopback : String → Bool) (host port : String) (hh : host ≠ "") (hp : ':' ∉ port.toList) :
    joinAddress loopback (some (host ++ ":" ++ port)) =
      if loopback (unbracket host) then "localhost" else if host.utf8ByteSize ≤ 1 then "" else host := by
  have hne : host.toList ≠ [] := fun e => hh (String.toList_eq_nil_iff.mp e)
  have hc : ":".toList = [':'] := by decide +kernel
  have h1 : ((host ++ ":" ++ port).toList.reverse.dropWhile (· ≠ ':')).drop 1 = host.toList.reverse := by
    simp only [String.toList_append, hc, List.reverse_append, List.reverse_cons, List.reverse_nil, List.nil_append, List.singleton_append]
    rw [dropWhile_append_stop _ _ _ _ (by simp)]
    · rfl
    · intro x hx
      have : x ∈ port.toList := List.mem_reverse.mp hx
      simp only [ne_eq, decide_eq_true_eq]
      exact fun e => hp (e ▸ this)
  unfold joinAddress
  simp only
  rw [h1]
  obtain ⟨c, r, hr⟩ := List.exists_cons_of_ne_nil (mt List.reverse_eq_nil_iff.mp hne)
  have h2 : String.ofList (c :: r).reverse = host := by rw [← hr]; simp
  rw [hr]
  simp only
  rw [h2]
  by_cases hl : loopback (unbracket host) = true
  · have : loopback (String.ofList (host.toList.filter fun c => c ≠ '[' ∧ c ≠ ']')) = true := hl
    rw [if_pos this, if_pos hl]
    decide +kernel
  · have : ¬ loopback (String.ofList (host.toList.filter fun c => c ≠ '[' ∧ c ≠ ']')) = true := hl
    rw [if_neg this, if_neg hl]

/-- C93: so after a join the node that asked knows itself under the host it was seen at and its own port, which is the address
that other nodes can reach it at, and changes nothing else. -/
theorem C93_learned (loopback : String → Bool) (host port : String) (hh : 1 < host.utf8ByteSize) (hp : ':' ∉ port.toList)
    (hl : loopback (unbracket host) = false) (n : Node) (x : String) :
    x ∈ (Net.learn n (joinAddress loopback (some (host ++ ":" ++ port)))).knownIds ↔
      x ∈ n.knownIds ∨ x = host ++ ":" ++ Nat.repr n.port.toNat := by
  have hne : host ≠ "" := fun e => by rw [e] at hh; exact absurd hh (by decide)
  rw [C93_reply loopback host port hne hp, hl, if_neg (by simp), if_neg (by omega)]
  rw [(C60_learn n host).2.1 x]
  simp [hne, feedback]

/-- C93: no address in the request's context, no address in the reply; and nothing is learned from it. -/
theorem C93_none (loopback : String → Bool) (n : Node) :
    joinAddress loopback none = "" ∧ Net.learn n (joinAddress loopback none) = n := by
  simp [joinAddress, Net.learn]

example : joinAddress (fun a => decide (a = "::1")) (some "[::1]:55312") = "localhost" ∧
    joinAddress (fun a => decide (a = "::1")) (some "10.1.2.3:55312") = "10.1.2.3" ∧
    joinAddress (fun a => decide (a = "::1")) (some "[fe80::7]:55312") = "[fe80::7]" := by decide +kernel

/-! ### C94 -/

namespace Net

theorem step_health {X : DS.XEnv} {s s' : NS} {e : Ev} (h : step X s e = some s') : s'.node.health = s.node.health := by
  cases e with
  | tick now =>
    simp only [step] at h
    split at h <;> cases h
    rfl
  | announce p =>
    simp only [step, Option.some.injEq] at h
    subst h
    unfold Net.announce
    split <;> rfl
  | sync ps =>
    simp only [step] at h
    split at h
    · rename_i n o hs
      cases h
      unfold syncWithPeers at hs
      cases hl : syncLoop X s.now ps s.node with
      | ok r =>
        rw [hl] at hs
        simp only [Res.bind, Res.ok.injEq, Prod.mk.injEq] at hs
        obtain ⟨rfl, -⟩ := hs
        obtain ⟨t, sv, m, he, -⟩ := syncLoop_eff ps (n' := r.1) (out := r.2) hl
        simp [he]
      | err e => rw [hl] at hs; cases hs
      | panic => rw [hl] at hs; cases hs
    · cases h
  | learn a =>
    simp only [step, Option.some.injEq] at h
    subst h
    unfold Net.learn
    split
    · rfl
    · split <;> rfl
  | close =>
    simp only [step, Option.some.injEq] at h
    subst h
    rfl
  | janitor id =>
    simp only [step] at h
    split at h
    · split at h <;> cases h
      rfl
    · cases h

theorem run_health {X : DS.XEnv} : ∀ (es : List Ev) {s s' : NS}, run X s es = some s' → s'.node.health = s.node.health
  | [], s, s', h => by cases h; rfl
  | e :: es, s, s', h => by
    rw [run] at h
    cases hs : step X s e with
    | none => rw [hs] at h; cases h
    | some s1 => rw [hs] at h; rw [run_health es h, step_health hs]

/-- What a body says. -/
def bodyFor (status : Nat) : String := if status = 200 then "{\"alive\": true}" else "{\"alive\": false}"

end Net

/-- C94: from the start of the server on, whatever happens, the health endpoint answers 200; and the bodies of both endpoints
agree with their status. -/
theorem C94_endpoints (X : DS.XEnv) (port : UInt32) (adv sv : List String) (ix : DS.DL) (now : Int) (es : List Ev) (s : NS)
    (h : run X ⟨now, newNode port adv sv ix⟩ es = some s) :
    (getHealth s.node).1 = 200 ∧ (getHealth s.node).2 = bodyFor (getHealth s.node).1 ∧
    (getReady s.node).2 = bodyFor (getReady s.node).1 ∧ ((getReady s.node).1 = 200 ∨ (getReady s.node).1 = 503) := by
  have hh : s.node.health = true := run_health es h
  refine ⟨by simp [getHealth, hh], by simp [getHealth, hh, bodyFor], ?_, ?_⟩
  · unfold getReady; split <;> simp [bodyFor]
  · unfold getReady; split <;> simp

/-- C94: only because nothing ever reports ill health: the answer that is there for that case says "alive" too. -/
theorem C94_unhealthy (n : Node) (h : n.health = false) : getHealth n = (500, bodyFor 200) := by
  simp [getHealth, h, bodyFor]

example : ∃ s, run (DS.toy 0) ⟨exNow, exNode⟩ [.sync [], .close] = some s ∧ getReady s.node = (503, bodyFor 503) ∧
    getHealth s.node = (200, bodyFor 200) := by
  refine ⟨_, rfl, ?_⟩
  decide +kernel

end Veri
