import Verif.Cluster.Placement
import Verif.Node.Contents
import Batteries.Data.List.Perm
/-
C181: an acknowledged insert and the loss of nodes.
-/
set_option autoImplicit false
namespace Veri
namespace Clu
open Net

/-- Data set `name` of the node has an entry for the key, of which `Q` holds. -/
def Has (Q : Entry → Prop) (name : String) (k : Bytes) (n : Node) : Prop :=
  ∃ x e, n.dataset.get? name = some x ∧ x.data.dbMap.get? k = some e ∧ Q e

/-- What the nodes outside `lost` may do in one step: whatever else they do they keep the entry, and an insert (which may make the data set
anew if its retention has ended) finds the data set; if it is for the key then `Q` holds of it. -/
def Spares (Q : Entry → Prop) (lost : List Nat) (name : String) (k : Bytes) (s : IState) : ILabel → Prop
  | .other i n => i ∈ lost ∨ ∀ n0, s.nodes[i]? = some n0 → Has Q name k n0 → Has Q name k n
  | .serve j now _ => ∀ t n, s.tasks[j]? = some t → s.nodes[t.node]? = some n → t.name = name → t.node ∉ lost → Has Q name k n →
      (DS.lookup now n.dataset name).isSome = true ∧ (getKeyAsBytes t.datum = some k → ∀ e : Entry, e.datum = t.datum → Q e)
  | _ => True

/-- ... in every step of an execution. -/
def AllSpare (X : DS.XEnv) (Q : Entry → Prop) (lost : List Nat) (name : String) (k : Bytes) (s0 : IState) (ls : List ILabel) : Prop :=
  ∀ ls1 l s1, ls1 ++ [l] <+: ls → iexec X s0 ls1 = some s1 → Spares Q lost name k s1 l

/-- A store keeps its keys when something is inserted. -/
theorem insertBDMap_keeps {now : Int64} {m m' : DBMap} {d : Datum} {c : Option InsertConfig} {b : Bool}
    (h : Store.insertBDMap now m (some d) c = .ok (m', b)) {k : Bytes} {e : Entry} (he : m.get? k = some e) :
    ∃ e', m'.get? k = some e' ∧ (e' = e ∨ getKeyAsBytes d = some k ∧ e'.datum = d) := by
  unfold Store.insertBDMap at h
  simp only [Res.ofOption_some, Res.bind_eq, Res.bind_ok] at h
  have hset : ∀ kb (e1 : Entry), e1.datum = d → getKeyAsBytes d = some kb → ∃ e', (m.set kb e1).get? k = some e' ∧ (e' = e ∨ getKeyAsBytes d = some k ∧ e'.datum = d) := by
    intro kb e1 h1 h2
    by_cases hk : k = kb
    · subst hk; exact ⟨e1, AMap.get?_set_self _ _ _, .inr ⟨h2, h1⟩⟩
    · exact ⟨e, by rw [AMap.get?_set_ne _ _ (fun h => hk h.symm)]; exact he, .inl rfl⟩
  cases hk : getKeyAsBytes d with
  | none => rw [hk] at h; cases h
  | some kb =>
    rw [hk] at h hset
    simp only [Res.ofOption_some, Res.bind_ok, encodeToString] at h
    cases hg : m.get? kb with
    | none =>
      rw [hg] at h
      cases h
      exact hset kb _ rfl rfl
    | some e0 =>
      rw [hg] at h
      simp only at h
      cases hv : getValueAsBytes d with
      | none => rw [hv] at h; cases h
      | some vb =>
        rw [hv] at h
        cases hv' : getValueAsBytes e0.datum with
        | none => rw [hv'] at h; cases h
        | some vb' =>
          rw [hv'] at h
          simp only [Res.ofOption_some, Res.bind_ok] at h
          split at h
          · cases h; exact ⟨e, he, .inl rfl⟩
          · cases h; exact hset kb _ rfl rfl

theorem localInsert_keeps {now : Int64} {dt dt' : Data} {d : Datum} {c : InsertConfig} {err : Option Err} {loop : Bool}
    (h : localInsert now dt d c = .ok (dt', err, loop)) {k : Bytes} {e : Entry} (he : dt.dbMap.get? k = some e) :
    ∃ e', dt'.dbMap.get? k = some e' ∧ (e' = e ∨ getKeyAsBytes d = some k ∧ e'.datum = d) := by
  unfold localInsert at h
  cases hi : Data.insert now [] (fun _ _ _ (w : Unit) => (w, none)) dt () (some d) (some c) with
  | err e => rw [hi] at h; cases h
  | panic => rw [hi] at h; cases h
  | ok out =>
    rw [hi] at h
    simp only [Res.bind, Res.ok.injEq, Prod.mk.injEq] at h
    obtain ⟨h1, h2, h3⟩ := h
    rcases Data.insert_cases _ _ _ _ _ _ _ _ hi with ⟨-, ho⟩ | ⟨-, d', dc, m, b, hd, hdc, hs, hdata, -⟩
    · rw [← h1, ho]; exact ⟨e, he, .inl rfl⟩
    · cases hd
      rw [← h1, hdata]
      exact insertBDMap_keeps hs he

/-- `Get` leaves the other data sets alone. -/
theorem get_others {X : DS.XEnv} {now : Int} {m m' : DS.DL} {name k : String} {d : Data} (h : DS.get X now m name = .ok (m', d))
    (hk : k ≠ name) : m'.get? k = m.get? k := by
  cases hl : DS.lookup now m name with
  | none =>
    rw [DS.get_new hl] at h
    simp only [Res.ok.injEq, Prod.mk.injEq] at h
    rw [← h.1, AMap.get?_set_ne _ _ (fun e => hk e.symm), AMap.get?_set_ne _ _ (fun e => hk e.symm)]
  | some s =>
    unfold DS.get at h
    rw [hl] at h
    simp only [DS.touch] at h
    obtain ⟨c, _, h⟩ := Iso.ok_of_bind h
    simp only [Res.ok.injEq, Prod.mk.injEq] at h
    rw [← h.1, AMap.get?_set_ne _ _ (fun e => hk e.symm)]

theorem has_step {X : DS.XEnv} {Q : Entry → Prop} {lost : List Nat} {name : String} {k : Bytes} {s s' : IState} {l : ILabel}
    (hl : Spares Q lost name k s l) (h : istep X s l = some s') {i : Nat} (hi : i ∉ lost) {n : Node} (hn : s.nodes[i]? = some n)
    (hh : Has Q name k n) : ∃ n', s'.nodes[i]? = some n' ∧ Has Q name k n' := by
  cases l with
  | client => simp only [istep, Option.some.injEq] at h; subst h; exact ⟨n, hn, hh⟩
  | send j dst =>
    refine ⟨n, ?_, hh⟩
    simp only [istep] at h
    repeat' split at h
    all_goals first
      | cases h; done
      | (simp only [Option.some.injEq] at h; subst h; exact hn)
  | back j =>
    refine ⟨n, ?_, hh⟩
    simp only [istep] at h
    repeat' split at h
    all_goals first
      | cases h; done
      | (simp only [Option.some.injEq] at h; subst h; exact hn)
  | other i' n' =>
    simp only [istep, Option.some.injEq] at h
    subst h
    by_cases e : i' = i
    · subst e
      rcases hl with hl | hl
      · exact absurd hl hi
      · exact ⟨n', by simp [(List.getElem?_eq_some_iff.mp hn).1], hl n hn hh⟩
    · exact ⟨n, by simp only; rw [List.getElem?_set_ne e]; exact hn, hh⟩
  | serve j now order =>
    simp only [istep] at h
    split at h
    · rename_i t ht
      split at h
      · rename_i n1 hp hn1
        split at h
        · simp only [Option.some.injEq] at h; subst h; exact ⟨n, hn, hh⟩
        · split at h
          · rename_i m dt hget
            split at h
            · rename_i dt' err loop hli
              split at h
              · rename_i x hx
                simp only [Option.some.injEq] at h
                subst h
                simp only [setPhase_nodes]
                by_cases e : t.node = i
                · subst e
                  rw [hn] at hn1
                  cases hn1
                  refine ⟨_, List.getElem?_set_self (List.getElem?_eq_some_iff.mp hn).1, ?_⟩
                  by_cases hname : t.name = name
                  · obtain ⟨a1, a2⟩ := hl t n ht hn hname hi hh
                    obtain ⟨s0, hs0⟩ := Option.isSome_iff_exists.mp a1
                    obtain ⟨x0, e0, b1, b2, b3⟩ := hh
                    have hx0 := (DS.lookup_some.mp hs0).1
                    rw [b1] at hx0
                    cases hx0
                    rw [← hname] at hs0
                    obtain ⟨rfl, s1, c1⟩ := Iso.get_there hs0 hget
                    obtain ⟨e1, d1, d2⟩ := localInsert_keeps hli b2
                    refine ⟨{ x with data := dt' }, e1, by rw [hname]; exact AMap.get?_set_self _ _ _, d1, ?_⟩
                    rcases d2 with d2 | ⟨d2, d3⟩
                    · rw [d2]; exact b3
                    · exact a2 d2 e1 d3
                  · obtain ⟨x0, e0, b1, b2, b3⟩ := hh
                    refine ⟨x0, e0, ?_, b2, b3⟩
                    rw [AMap.get?_set_ne _ _ hname, get_others hget (fun e => hname e.symm)]
                    exact b1
                · exact ⟨n, by rw [List.getElem?_set_ne e]; exact hn, hh⟩
              · cases h
            · cases h
          · simp only [Option.some.injEq] at h; subst h; exact ⟨n, hn, hh⟩
          · cases h
      · cases h
    · cases h

theorem has_exec {X : DS.XEnv} {Q : Entry → Prop} {lost : List Nat} {name : String} {k : Bytes} {s0 s1 : IState} {ls1 : List ILabel}
    (h1 : iexec X s0 ls1 = some s1) {i : Nat} (hi : i ∉ lost) {n : Node} (hn : s1.nodes[i]? = some n) (hh : Has Q name k n) :
    ∀ (ls : List ILabel) (s : IState), AllSpare X Q lost name k s0 (ls1 ++ ls) → iexec X s0 (ls1 ++ ls) = some s →
      ∃ n', s.nodes[i]? = some n' ∧ Has Q name k n' := by
  intro ls
  induction ls using List.reverseRecOn with
  | nil => intro s _ h; rw [List.append_nil, h1] at h; cases h; exact ⟨n, hn, hh⟩
  | append_singleton ls l ih =>
    intro s ha h
    rw [← List.append_assoc] at h ha
    have h' := h
    rw [iexec_append] at h
    cases h2 : iexec X s0 (ls1 ++ ls) with
    | none => rw [h2] at h; cases h
    | some s2 =>
      rw [h2] at h
      simp only [Option.bind_some, iexec] at h
      cases h3 : istep X s2 l with
      | none => rw [h3] at h; cases h
      | some s3 =>
        rw [h3] at h
        cases h
        obtain ⟨n2, e1, e2⟩ := ih s2 (fun l1 l' s' hp => ha l1 l' s' (hp.trans (List.prefix_append _ _))) h2
        exact has_step (ha _ l s2 List.prefix_rfl h2) h3 hi e1 e2

/-- More holders than lost nodes. -/
theorem outlives {X : DS.XEnv} {s0 s' : IState} {ls ls2 : List ILabel} {name : String} {d : Datum} {Q : Entry → Prop} {lost : List Nat}
    {r : Nat} {k : Bytes} (hk : getKeyAsBytes d = some k) (hQ : ∀ e, getValueAsBytes e.datum = getValueAsBytes d → Q e)
    (h : ∃ l : List Nat, l.Nodup ∧ r ≤ l.length ∧ ∀ i ∈ l, Held X s0 ls i name d) (hr : lost.length < r)
    (ha : AllSpare X Q lost name k s0 (ls ++ ls2)) (he : iexec X s0 (ls ++ ls2) = some s') :
    ∃ i n, i ∉ lost ∧ s'.nodes[i]? = some n ∧ Has Q name k n := by
  obtain ⟨l, g1, g2, g3⟩ := h
  have : ∃ i ∈ l, i ∉ lost := by
    apply Classical.byContradiction
    intro hno
    have hsub : l ⊆ lost := fun i hi => Classical.byContradiction fun h => hno ⟨i, hi, h⟩
    have := (List.subperm_of_subset g1 hsub).length_le
    omega
  obtain ⟨i, hi, hn⟩ := this
  obtain ⟨ls1, s1, hp, h1, n, x, kb, e, a1, a2, a3, a4, a5⟩ := g3 i hi
  rw [hk] at a3
  cases a3
  obtain ⟨rest, rfl⟩ := hp
  rw [List.append_assoc] at ha he
  obtain ⟨n', b1, b2⟩ := has_exec h1 hn a1 ⟨x, e, a2, a4, hQ e a5⟩ (rest ++ ls2) s' ha he
  exact ⟨i, n', hn, b1, b2⟩

end Clu
open Clu Net

/-- C181, full statement (FALSE of the code): an insert has been acknowledged (`ls`), its data set asked for `r` nodes throughout, and then anything happens (`ls2`). The nodes
`lost` may do anything, in particular forget everything, before and after the insert; the others may not take the datum away, or write
another value for its key. If fewer than `r` nodes are lost then another node has the datum in the end. -/
def C181_statement : Prop :=
  ∀ (X : DS.XEnv) (nodes : List Node) (ls ls2 : List ILabel) (s s' : IState) (j : Nat) (t : Task) (r : UInt32) (k : Bytes) (lost : List Nat),
    X.Ok → iexec X ⟨nodes, []⟩ ls = some s → s.tasks[j]? = some t → t.phase = .over none → t.config.count = 0 →
    AlwaysAsks X ⟨nodes, []⟩ ls t.node t.name r → getKeyAsBytes t.datum = some k → lost.length < r.toNat →
    AllSpare X (fun e => getValueAsBytes e.datum = getValueAsBytes t.datum) lost t.name k ⟨nodes, []⟩ (ls ++ ls2) →
    iexec X ⟨nodes, []⟩ (ls ++ ls2) = some s' → ∃ i, i ∉ lost ∧ Holds s' i t.name t.datum

/-- C181 if each call reaches the node of the source called, or none, and the sources are different nodes, none of them the node itself. -/
theorem C181_partial (X : DS.XEnv) (nodes : List Node) (ls ls2 : List ILabel) (s s' : IState) (j : Nat) (t : Task) (r : UInt32) (k : Bytes)
    (lost : List Nat) (h : iexec X ⟨nodes, []⟩ ls = some s) (ht : s.tasks[j]? = some t) (hp : t.phase = .over none)
    (hc : t.config.count = 0) (ha : AlwaysAsks X ⟨nodes, []⟩ ls t.node t.name r) (reach : SourceId → Option Nat)
    (hreach : CallsReach reach X ⟨nodes, []⟩ ls j) (hsrc : SourcesApart reach ls j t.node)
    (hk : getKeyAsBytes t.datum = some k) (hl : lost.length < r.toNat)
    (hsp : AllSpare X (fun e => getValueAsBytes e.datum = getValueAsBytes t.datum) lost t.name k ⟨nodes, []⟩ (ls ++ ls2))
    (he : iexec X ⟨nodes, []⟩ (ls ++ ls2) = some s') : ∃ i, i ∉ lost ∧ Holds s' i t.name t.datum := by
  obtain ⟨i, n, h1, h2, x, e, h3, h4, h5⟩ := outlives hk (fun _ h => h)
    (C99_sources_partial X nodes ls s j t r h ht hp hc ha reach hreach hsrc) hl hsp he
  exact ⟨i, h1, n, x, k, e, h2, h3, hk, h4, h5⟩

/-- ... and if the others may write other values for the key, then another node has some datum for it. -/
theorem C181_key_partial (X : DS.XEnv) (nodes : List Node) (ls ls2 : List ILabel) (s s' : IState) (j : Nat) (t : Task) (r : UInt32) (k : Bytes)
    (lost : List Nat) (h : iexec X ⟨nodes, []⟩ ls = some s) (ht : s.tasks[j]? = some t) (hp : t.phase = .over none)
    (hc : t.config.count = 0) (ha : AlwaysAsks X ⟨nodes, []⟩ ls t.node t.name r) (reach : SourceId → Option Nat)
    (hreach : CallsReach reach X ⟨nodes, []⟩ ls j) (hsrc : SourcesApart reach ls j t.node)
    (hk : getKeyAsBytes t.datum = some k) (hl : lost.length < r.toNat)
    (hsp : AllSpare X (fun _ => True) lost t.name k ⟨nodes, []⟩ (ls ++ ls2)) (he : iexec X ⟨nodes, []⟩ (ls ++ ls2) = some s') :
    ∃ i n x e, i ∉ lost ∧ s'.nodes[i]? = some n ∧ n.dataset.get? t.name = some x ∧ x.data.dbMap.get? k = some e := by
  obtain ⟨i, n, h1, h2, x, e, h3, h4, -⟩ := outlives hk (fun _ _ => trivial)
    (C99_sources_partial X nodes ls s j t r h ht hp hc ha reach hreach hsrc) hl hsp he
  exact ⟨i, n, x, e, h1, h2, h3, h4⟩

namespace Clu

/-- The check of `Spares` by evaluation, for executions in which the other nodes do nothing else. -/
def spares? (R : Datum → Bool) (lost : List Nat) (name : String) (l : ILabel) (s : IState) : Bool :=
  match l with
  | .other i _ => decide (i ∈ lost)
  | .serve j now _ => (s.tasks[j]?).all fun t => (s.nodes[t.node]?).all fun n =>
      decide (t.name ≠ name) || decide (t.node ∈ lost) || ((DS.lookup now n.dataset name).isSome && R t.datum)
  | _ => true

theorem allSpare_of {X : DS.XEnv} {R : Datum → Bool} {lost : List Nat} {name : String} {k : Bytes} {s0 : IState} {ls : List ILabel}
    (h : ((List.range ls.length).all fun m => (ls[m]?).all fun l => (iexec X s0 (ls.take m)).all (spares? R lost name l)) = true) :
    AllSpare X (fun e => R e.datum = true) lost name k s0 ls := by
  intro ls1 l s1 hp h1
  have hlt : ls1.length < ls.length := by have := hp.length_le; simp at this; omega
  rw [List.all_eq_true] at h
  have := h ls1.length (List.mem_range.mpr hlt)
  have htake : ls.take ls1.length = ls1 := (List.prefix_iff_eq_take.mp ((List.prefix_append _ _).trans hp)).symm
  have hget : ls[ls1.length]? = some l := by
    obtain ⟨r, rfl⟩ := hp
    simp
  rw [hget, htake, h1] at this
  simp only [Option.all_some] at this
  cases l with
  | other i n => exact .inl (by simpa [spares?] using this)
  | serve j now order =>
    intro t n ht hn hname hlost _
    simp only [spares?, ht, hn, Option.all_some, Bool.or_eq_true, decide_eq_true_eq, Bool.and_eq_true] at this
    rcases this with (h | h) | ⟨h2, h3⟩
    · exact absurd hname h
    · exact absurd h hlost
    · exact ⟨h2, fun _ e he => by show R e.datum = true; rw [he]; exact h3⟩
  | _ => trivial

/-- The answer of an execution whose first request was acknowledged. -/
theorem acknowledged {X : DS.XEnv} {s0 : IState} {ls : List ILabel} (hx : (iexec X s0 ls).any (fun (s : IState) => (s.tasks[0]?).any fun (t : Task) =>
      decide (t.node = 0 ∧ t.name = "a" ∧ t.datum = exD ∧ t.config.count = 0) && (match t.phase with | .over none => true | _ => false)) = true) :
    ∃ s t, iexec X s0 ls = some s ∧ s.tasks[0]? = some t ∧ t.phase = .over none ∧ t.node = 0 ∧ t.name = "a" ∧ t.datum = exD ∧ t.config.count = 0 := by
  obtain ⟨s, hs, hx⟩ := DS.any_some hx
  obtain ⟨t, ht, hx⟩ := DS.any_some hx
  simp only [Bool.and_eq_true, decide_eq_true_eq] at hx
  obtain ⟨⟨h1, h2, h3, h4⟩, h5⟩ := hx
  refine ⟨s, t, hs, ht, ?_, h1, h2, h3, h4⟩
  revert h5
  split
  · rename_i hp; intro _; exact hp
  · intro h; cases h

/-- Two of the three nodes lose everything. -/
def exLoss : List ILabel := [.other 0 (newNode 7000 [] [] []), .other 2 (newNode 7000 [] [] [])]

end Clu

/-- All the copies of an acknowledged insert may be on one node, which passed it on to itself. -/
theorem C181_fails : ¬ C181_statement := by
  intro h
  obtain ⟨s, t, hs, ht, hp, h1, h2, h3, h4⟩ := acknowledged (X := DS.toy 0) (s0 := ⟨[exM], []⟩) (ls := exSelf) (by decide +kernel)
  have hk : ∃ k, getKeyAsBytes t.datum = some k := by
    rw [h3]; exact Option.isSome_iff_exists.mp (by decide +kernel)
  obtain ⟨k, hk⟩ := hk
  obtain ⟨i, hi, n, -, -, -, hn, -⟩ := h (DS.toy 0) [exM] exSelf [] s s 0 t 3 k [0] (DS.toy_ok 0) hs ht hp h4
    (by rw [h1, h2]; exact alwaysAsks_of (by decide +kernel)) hk (by decide)
    (by
      have := allSpare_of (X := DS.toy 0) (R := fun d => decide (getValueAsBytes d = getValueAsBytes t.datum)) (lost := [0]) (name := t.name) (k := k)
        (s0 := ⟨[exM], []⟩) (ls := exSelf ++ []) (by rw [h2, h3]; decide +kernel)
      simpa only [decide_eq_true_eq] using this)
    (by rw [List.append_nil]; exact hs)
  have hlen := iexec_length _ hs
  have := (List.getElem?_eq_some_iff.mp hn).1
  simp only [List.length_singleton] at hlen
  apply hi
  have : i = 0 := by omega
  simp [this]

/-- An insert on three nodes, two of which lose everything afterwards: the third has it. -/
theorem C181_example : ∃ s', iexec (DS.toy 0) ⟨[exM, exM, exM], []⟩ (exThree ++ exLoss) = some s' ∧ ∃ i, i ∉ [0, 2] ∧ Holds s' i "a" exD := by
  obtain ⟨s, t, hs, ht, hp, h1, h2, h3, h4⟩ := acknowledged (X := DS.toy 0) (s0 := ⟨[exM, exM, exM], []⟩) (ls := exThree) (by decide +kernel)
  have he : ∃ s', iexec (DS.toy 0) ⟨[exM, exM, exM], []⟩ (exThree ++ exLoss) = some s' := Option.isSome_iff_exists.mp (by decide +kernel)
  obtain ⟨s', he⟩ := he
  have hk : ∃ k, getKeyAsBytes t.datum = some k := by
    rw [h3]; exact Option.isSome_iff_exists.mp (by decide +kernel)
  obtain ⟨k, hk⟩ := hk
  have := C181_partial (DS.toy 0) [exM, exM, exM] exThree exLoss s s' 0 t 3 k [0, 2] hs ht hp h4
    (by rw [h1, h2]; exact alwaysAsks_of (by decide +kernel))
    (fun a => if a = "x" then some 1 else if a = "z" then some 2 else none) (callsReach_of (by decide +kernel))
    (by
      intro now order hm
      simp only [exThree, List.mem_cons, List.not_mem_nil, or_false, ILabel.serve.injEq, reduceCtorEq, false_or] at hm
      rw [h1]
      rcases hm with ⟨-, -, rfl⟩ | ⟨h, -⟩ | ⟨h, -⟩
      · decide
      · cases h
      · cases h)
    hk (by decide)
    (by
      have := allSpare_of (X := DS.toy 0) (R := fun d => decide (getValueAsBytes d = getValueAsBytes t.datum)) (lost := [0, 2]) (name := t.name) (k := k)
        (s0 := ⟨[exM, exM, exM], []⟩) (ls := exThree ++ exLoss) (by rw [h2, h3]; decide +kernel)
      simpa only [decide_eq_true_eq] using this)
    he
  rw [h2, h3] at this
  exact ⟨s', he, this⟩

end Veri
