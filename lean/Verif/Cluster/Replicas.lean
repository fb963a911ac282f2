import Verif.Cluster.Insert
import Verif.Dataset.Conc
/-
C99: on how many nodes an acknowledged insert is stored.
-/
set_option autoImplicit false
namespace Veri
namespace Clu
open Net

/-! ### What is claimed -/

/-- Data set `name` of node `i` has an entry for the key of the datum, with its value. -/
def Holds (s : IState) (i : Nat) (name : String) (d : Datum) : Prop :=
  ∃ n x kb e, s.nodes[i]? = some n ∧ n.dataset.get? name = some x ∧ getKeyAsBytes d = some kb ∧ x.data.dbMap.get? kb = some e ∧
    getValueAsBytes e.datum = getValueAsBytes d

/-- At some moment of the execution node `i` held the datum. -/
def Held (X : DS.XEnv) (s0 : IState) (ls : List ILabel) (i : Nat) (name : String) (d : Datum) : Prop :=
  ∃ ls1 s1, ls1 <+: ls ∧ iexec X s0 ls1 = some s1 ∧ Holds s1 i name d

/-- Data set `name` of node `i` asks for `r` replicas of every insert. -/
def Asks (s : IState) (i : Nat) (name : String) (r : UInt32) : Prop :=
  ∃ n x c, s.nodes[i]? = some n ∧ n.dataset.get? name = some x ∧ x.data.config = some c ∧ c.enforceReplicationOnInsert = true ∧
    c.replicationOnInsert = r

/-- ... throughout an execution. -/
def AlwaysAsks (X : DS.XEnv) (s0 : IState) (ls : List ILabel) (i : Nat) (name : String) (r : UInt32) : Prop :=
  ∀ ls1 s1, ls1 <+: ls → iexec X s0 ls1 = some s1 → Asks s1 i name r

/-! ### Proofs -/

theorem iexec_append (X : DS.XEnv) : ∀ (ls1 ls2 : List ILabel) (s : IState),
    iexec X s (ls1 ++ ls2) = (iexec X s ls1).bind fun s => iexec X s ls2
  | [], _, _ => rfl
  | l :: ls1, ls2, s => by
    simp only [List.cons_append, iexec]
    cases istep X s l with
    | none => rfl
    | some s1 => exact iexec_append X ls1 ls2 s1

/-- A datum accepted by the local part is held afterwards. -/
theorem localInsert_holds {now : Int64} {dt dt' : Data} {d : Datum} {c : InsertConfig} {err : Option Err} {loop : Bool}
    (h : localInsert now dt d c = .ok (dt', err, loop)) (hl : loop = true ∨ err = none) :
    dt'.config = dt.config ∧ ∃ kb e, getKeyAsBytes d = some kb ∧ dt'.dbMap.get? kb = some e ∧ getValueAsBytes e.datum = getValueAsBytes d := by
  unfold localInsert at h
  cases hi : Data.insert now [] (fun _ _ _ (w : Unit) => (w, none)) dt () (some d) (some c) with
  | err e => rw [hi] at h; cases h
  | panic => rw [hi] at h; cases h
  | ok out =>
    rw [hi] at h
    simp only [Res.bind, Res.ok.injEq, Prod.mk.injEq] at h
    obtain ⟨h1, h2, h3⟩ := h
    rcases Data.insert_cases _ _ _ _ _ _ _ _ hi with ⟨hf, ho⟩ | ⟨-, d', dc, m, b, hd, hdc, hs, hdata, -⟩
    · exfalso
      have ho' := (Data.full_iff dt).2 hf
      rcases hl with hl | hl
      · rw [hl] at h3; simp [ho'] at h3
      · rw [ho] at h2; rw [hl] at h2; cases h2
    · cases hd
      rw [← h1, hdata]
      refine ⟨Data.initData_config dt, ?_⟩
      simp only
      unfold Store.insertBDMap at hs
      simp only [Res.ofOption_some, Res.bind_eq, Res.bind_ok] at hs
      cases hk : getKeyAsBytes d with
      | none => rw [hk] at hs; cases hs
      | some kb =>
        rw [hk] at hs
        simp only [Res.ofOption_some, Res.bind_ok, encodeToString] at hs
        refine ⟨kb, ?_⟩
        cases hg : dt.dbMap.get? kb with
        | none =>
          rw [hg] at hs
          cases hs
          exact ⟨_, rfl, AMap.get?_set_self _ _ _, rfl⟩
        | some e =>
          rw [hg] at hs
          simp only at hs
          cases hv : getValueAsBytes d with
          | none => rw [hv] at hs; cases hs
          | some vb =>
            rw [hv] at hs
            cases hv' : getValueAsBytes e.datum with
            | none => rw [hv'] at hs; cases hs
            | some vb' =>
              rw [hv'] at hs
              simp only [Res.ofOption_some, Res.bind_ok] at hs
              split at hs
              · rename_i hc
                cases hs
                exact ⟨e, rfl, hg, by rw [hv', hc.1]⟩
              · cases hs
                exact ⟨_, rfl, AMap.get?_set_self _ _ _, hv⟩

theorem localInsert_noloop {now : Int64} {dt dt' : Data} {d : Datum} {c : InsertConfig} {err : Option Err}
    (h : localInsert now dt d c = .ok (dt', err, false)) (he : err = none) {dc : DataConfig} (hc : dt'.config = some dc)
    (henf : dc.enforceReplicationOnInsert = true) : c.count ≠ 0 := by
  have h0 := (localInsert_holds h (Or.inr he)).1
  unfold localInsert at h
  cases hi : Data.insert now [] (fun _ _ _ (w : Unit) => (w, none)) dt () (some d) (some c) with
  | err e => rw [hi] at h; cases h
  | panic => rw [hi] at h; cases h
  | ok out =>
    rw [hi] at h
    simp only [Res.bind, Res.ok.injEq, Prod.mk.injEq] at h
    obtain ⟨h1, h2, h3⟩ := h
    intro hcount
    rw [decide_eq_false_iff_not] at h3
    apply h3
    refine ⟨?_, ?_, hcount⟩
    · cases ho : dt.overTarget with
      | false => rfl
      | true =>
        rcases Data.insert_cases _ _ _ _ _ _ _ _ hi with ⟨-, ho⟩ | ⟨hf, -⟩
        · rw [ho, he] at h2; cases h2
        · exact absurd ((Data.full_iff dt).1 ho) hf
    · rw [← h0, hc]; simpa using henf

/-- What a handler knows about its calls: the acknowledged ones are `l`. -/
def Acked (s : IState) (j : Nat) (l : List Nat) : Prop :=
  l.Nodup ∧ ∀ k ∈ l, ∃ c, s.tasks[k]? = some c ∧ c.parent = some j ∧ c.phase = .over none

/-- The phase of handler `j` of request `t`; `r` is the number of replicas asked for at node `i` for data set `name`. -/
def Progress (H : Nat → String → Datum → Prop) (i : Nat) (name : String) (r : UInt32) (s : IState) (j : Nat) (t : Task) : Prop :=
  match t.phase with
  | .begun => True
  | .sending _ limit counter => H t.node t.name t.datum ∧ -1 ≤ limit ∧ (counter.toNat : Int) + limit ≤ 6 ∧
      ∃ l, Acked s j l ∧ counter.toNat = 1 + l.length
  | .waiting k _ limit counter => H t.node t.name t.datum ∧ -1 ≤ limit ∧ (counter.toNat : Int) + limit ≤ 5 ∧
      (∃ c, s.tasks[k]? = some c ∧ c.parent = some j) ∧ ∃ l, Acked s j l ∧ counter.toNat = 1 + l.length ∧ k ∉ l
  | .over none => H t.node t.name t.datum ∧
      (t.node = i → t.name = name → t.config.count = 0 → ∃ l, Acked s j l ∧ r.toNat ≤ 1 + l.length)
  | .over (some _) => True

structure RInv (H : Nat → String → Datum → Prop) (i : Nat) (name : String) (r : UInt32) (s : IState) : Prop where
  progress : ∀ (j : Nat) (t : Task), s.tasks[j]? = some t → Progress H i name r s j t
  same : ∀ (k j : Nat) (c t : Task), s.tasks[k]? = some c → c.parent = some j → s.tasks[j]? = some t →
    c.name = t.name ∧ c.datum = t.datum
  parents : ∀ (k j : Nat) (c : Task), s.tasks[k]? = some c → c.parent = some j → j < s.tasks.length

theorem rinv_mono {H H' : Nat → String → Datum → Prop} {i : Nat} {name : String} {r : UInt32} {s : IState}
    (hh : ∀ i n d, H i n d → H' i n d) (hi : RInv H i name r s) : RInv H' i name r s := by
  refine ⟨fun j t ht => ?_, hi.same, hi.parents⟩
  have := hi.progress j t ht
  unfold Progress at this ⊢
  split at this <;> simp_all

/-- Steps that only add tasks, change phases of tasks that are not over, and leave the identity of tasks alone. -/
def Ext (s s' : IState) : Prop :=
  s.tasks.length ≤ s'.tasks.length ∧
  (∀ (k : Nat) (c : Task), s.tasks[k]? = some c → ∃ c', s'.tasks[k]? = some c' ∧ c'.parent = c.parent ∧ c'.name = c.name ∧
    c'.datum = c.datum ∧ c'.node = c.node ∧ c'.config = c.config ∧ (∀ e, c.phase = .over e → c'.phase = .over e))

theorem Ext.acked {s s' : IState} (he : Ext s s') {j : Nat} {l : List Nat} (h : Acked s j l) : Acked s' j l := by
  refine ⟨h.1, fun k hk => ?_⟩
  obtain ⟨c, h1, h2, h3⟩ := h.2 k hk
  obtain ⟨c', g1, g2, -, -, -, -, g7⟩ := he.2 k c h1
  exact ⟨c', g1, g2.trans h2, g7 _ h3⟩

theorem Ext.progress {H : Nat → String → Datum → Prop} {i : Nat} {name : String} {r : UInt32} {s s' : IState} (he : Ext s s') {j : Nat}
    {t : Task} (h : Progress H i name r s j t) : Progress H i name r s' j t := by
  unfold Progress at h ⊢
  cases hp : t.phase with
  | begun => trivial
  | sending order limit counter =>
    rw [hp] at h
    obtain ⟨h1, h2, h3, l, h4, h5⟩ := h
    exact ⟨h1, h2, h3, l, he.acked h4, h5⟩
  | waiting k order limit counter =>
    rw [hp] at h
    obtain ⟨h1, h2, h3, ⟨c, hc, hcp⟩, l, h4, h5⟩ := h
    obtain ⟨c', g1, g2, -⟩ := he.2 _ c hc
    exact ⟨h1, h2, h3, ⟨c', g1, g2.trans hcp⟩, l, he.acked h4, h5⟩
  | over e =>
    rw [hp] at h
    cases e with
    | none =>
      refine ⟨h.1, fun a b c => ?_⟩
      obtain ⟨l, h4, h5⟩ := h.2 a b c
      exact ⟨l, he.acked h4, h5⟩
    | some e => trivial

theorem ext_phase {s : IState} {j : Nat} {t : Task} {p : Phase} (h : s.tasks[j]? = some t) (ho : ∀ e, t.phase ≠ .over e) :
    Ext s (setPhase s j t p) := by
  refine ⟨by simp [setPhase], ?_⟩
  intro k c hk
  by_cases hkj : j = k
  · subst hkj
    rw [h] at hk
    cases hk
    exact ⟨{ t with phase := p }, List.getElem?_set_self (List.getElem?_eq_some_iff.mp h).1, rfl, rfl, rfl, rfl, rfl,
      fun e he => absurd he (ho e)⟩
  · exact ⟨c, by simpa [setPhase, List.getElem?_set_ne hkj] using hk, rfl, rfl, rfl, rfl, rfl, fun e he => he⟩

theorem ext_append {s : IState} (ts : List Task) : Ext s { s with tasks := s.tasks ++ ts } := by
  refine ⟨by simp, ?_⟩
  intro k c hk
  refine ⟨c, ?_, rfl, rfl, rfl, rfl, rfl, fun e he => he⟩
  simp only
  rw [List.getElem?_append_left (List.getElem?_eq_some_iff.mp hk).1]
  exact hk

theorem Ext.trans {s s' s'' : IState} (h : Ext s s') (h' : Ext s' s'') : Ext s s'' := by
  refine ⟨Nat.le_trans h.1 h'.1, ?_⟩
  intro k c hk
  obtain ⟨c1, a1, a2, a3, a4, a5, a6, a7⟩ := h.2 k c hk
  obtain ⟨c2, b1, b2, b3, b4, b5, b6, b7⟩ := h'.2 k c1 a1
  exact ⟨c2, b1, b2.trans a2, b3.trans a3, b4.trans a4, b5.trans a5, b6.trans a6, fun e he => b7 e (a7 e he)⟩

/-- One handler changes its phase. -/
theorem rinv_phase {H : Nat → String → Datum → Prop} {i : Nat} {name : String} {r : UInt32} {s : IState} (hi : RInv H i name r s) {j : Nat}
    {t : Task} {p : Phase} (h : s.tasks[j]? = some t) (ho : ∀ e, t.phase ≠ .over e)
    (hp : Progress H i name r (setPhase s j t p) j { t with phase := p }) : RInv H i name r (setPhase s j t p) := by
  have hext := ext_phase (p := p) h ho
  have hback : ∀ (k : Nat) (c' : Task), (setPhase s j t p).tasks[k]? = some c' → ∃ c, s.tasks[k]? = some c ∧ c'.parent = c.parent ∧
      c'.name = c.name ∧ c'.datum = c.datum := by
    intro k c' hk
    have hlt : k < s.tasks.length := by
      have := (List.getElem?_eq_some_iff.mp hk).1
      simpa [setPhase] using this
    obtain ⟨c'', g1, g2, g3, g4, -⟩ := hext.2 k _ (List.getElem?_eq_getElem hlt)
    rw [hk] at g1
    cases g1
    exact ⟨_, List.getElem?_eq_getElem hlt, g2, g3, g4⟩
  constructor
  · intro k c hk
    by_cases hkj : j = k
    · subst hkj
      simp only [setPhase] at hk
      rw [List.getElem?_set_self (List.getElem?_eq_some_iff.mp h).1] at hk
      cases hk
      exact hp
    · have hk' : s.tasks[k]? = some c := by simpa [setPhase, List.getElem?_set_ne hkj] using hk
      exact hext.progress (hi.progress k c hk')
  · intro k m c u hk hpar hm
    obtain ⟨c0, a1, a2, a3, a4⟩ := hback k c hk
    obtain ⟨u0, b1, -, b3, b4⟩ := hback m u hm
    have := hi.same k m c0 u0 a1 (a2 ▸ hpar) b1
    exact ⟨by rw [a3, b3, this.1], by rw [a4, b4, this.2]⟩
  · intro k m c hk hpar
    obtain ⟨c0, a1, a2, -⟩ := hback k c hk
    have := hi.parents k m c0 a1 (a2 ▸ hpar)
    simpa [setPhase] using this

theorem rinv_append {H : Nat → String → Datum → Prop} {i : Nat} {name : String} {r : UInt32} {s : IState} (hi : RInv H i name r s) (t : Task)
    (h0 : t.phase = .begun)
    (hp : ∀ j, t.parent = some j → ∃ tj, s.tasks[j]? = some tj ∧ t.name = tj.name ∧ t.datum = tj.datum) :
    RInv H i name r { s with tasks := s.tasks ++ [t] } := by
  have hlast : ∀ (k : Nat) (c : Task), (s.tasks ++ [t])[k]? = some c → s.tasks[k]? = some c ∨ (k = s.tasks.length ∧ c = t) := by
    intro k c hk
    rw [List.getElem?_append] at hk
    split at hk
    · exact Or.inl hk
    · right
      have hlt := (List.getElem?_eq_some_iff.mp hk).1
      simp only [List.length_singleton] at hlt
      have : k - s.tasks.length = 0 := by omega
      rw [this] at hk
      simp at hk
      exact ⟨by omega, hk.symm⟩
  constructor
  · intro k c hk
    rcases hlast k c hk with hk | ⟨-, rfl⟩
    · exact (ext_append [t]).progress (hi.progress k c hk)
    · unfold Progress; rw [h0]; trivial
  · intro k m c u hk hpar hm
    rcases hlast k c hk with hk | ⟨rfl, rfl⟩
    · have hmlt := hi.parents k m c hk hpar
      rcases hlast m u hm with hm | ⟨rfl, -⟩
      · exact hi.same k m c u hk hpar hm
      · exact absurd hmlt (Nat.lt_irrefl _)
    · obtain ⟨tj, a1, a2, a3⟩ := hp m hpar
      rcases hlast m u hm with hm | ⟨rfl, -⟩
      · rw [a1] at hm
        cases hm
        exact ⟨a2, a3⟩
      · rw [List.getElem?_eq_none (Nat.le_refl _)] at a1
        cases a1
  · intro k m c hk hpar
    simp only [List.length_append, List.length_singleton]
    rcases hlast k c hk with hk | ⟨-, rfl⟩
    · have := hi.parents k m c hk hpar
      omega
    · obtain ⟨tj, a1, -⟩ := hp m hpar
      have := (List.getElem?_eq_some_iff.mp a1).1
      omega

theorem rinv_nodes {H : Nat → String → Datum → Prop} {i : Nat} {name : String} {r : UInt32} {s : IState} (hi : RInv H i name r s)
    (nodes : List Node) : RInv H i name r { s with nodes := nodes } := by
  refine ⟨fun j t ht => ?_, hi.same, hi.parents⟩
  have := hi.progress j t ht
  unfold Progress at this ⊢
  exact this

theorem replication_of_asks {s : IState} {t : Task} {r : UInt32} (h : Asks s t.node t.name r) : replication s t = r := by
  obtain ⟨n, x, c, h1, h2, h3, h4, h5⟩ := h
  unfold replication
  simp only [h1, h2, h3]
  simpa using h5

/-- The end of a call of handler `j`. -/
theorem progress_after {H : Nat → String → Datum → Prop} {i : Nat} {name : String} {r : UInt32} {s : IState} {j : Nat} {t : Task}
    {order : List SourceId} {limit : Int} {counter : UInt32} {ok : Bool} {l l' : List Nat}
    (hH : H t.node t.name t.datum) (h1 : -1 ≤ limit) (h2 : (counter.toNat : Int) + limit ≤ 5)
    (hl : Acked s j l) (hc : counter.toNat = 1 + l.length) (hok : ok = true → Acked s j l' ∧ l'.length = l.length + 1)
    (R : UInt32) (hr : t.node = i → t.name = name → R = r) :
    Progress H i name r s j { t with phase := afterCall R ok order limit counter } := by
  unfold afterCall
  dsimp only
  have hadd : (counter + 1).toNat = counter.toNat + 1 := by
    rw [UInt32.toNat_add]
    have : (1 : UInt32).toNat = 1 := rfl
    rw [this]
    omega
  have key : ∃ l1, Acked s j l1 ∧ (if ok = true then counter + 1 else counter).toNat = 1 + l1.length ∧
      ((if ok = true then counter + 1 else counter).toNat : Int) + limit ≤ 6 := by
    cases ok with
    | true =>
      obtain ⟨a, b⟩ := hok rfl
      exact ⟨l', a, by rw [if_pos rfl, hadd]; omega, by rw [if_pos rfl, hadd]; omega⟩
    | false => exact ⟨l, hl, by simp [hc], by simp; omega⟩
  generalize (if ok = true then counter + 1 else counter) = c at key ⊢
  obtain ⟨l1, k1, k2, k3⟩ := key
  by_cases hcr : c ≥ R
  · rw [if_pos hcr, if_neg (by rw [UInt32.not_lt]; exact hcr)]
    simp only [Progress]
    refine ⟨hH, fun a b _ => ⟨l1, k1, ?_⟩⟩
    rw [← hr a b]
    have := UInt32.le_iff_toNat_le.mp hcr
    omega
  · rw [if_neg hcr]
    simp only [Progress]
    exact ⟨hH, h1, k3, l1, k1, k2⟩

theorem setPhase_nodes (s : IState) (j : Nat) (t : Task) (p : Phase) : (setPhase s j t p).nodes = s.nodes := rfl

theorem asks_nodes {s s' : IState} (h : s.nodes = s'.nodes) {i : Nat} {name : String} {r : UInt32} (ha : Asks s i name r) : Asks s' i name r := by
  unfold Asks at ha ⊢
  rw [← h]
  exact ha

theorem rinv_step {X : DS.XEnv} {H : Nat → String → Datum → Prop} {i : Nat} {name : String} {r : UInt32} {s s' : IState} {l : ILabel}
    (hi : RInv H i name r s) (ha : Asks s i name r) (ha' : Asks s' i name r)
    (hH : ∀ a b d, Holds s' a b d → H a b d) (h : istep X s l = some s') : RInv H i name r s' := by
  have hrep : ∀ t : Task, t.node = i → t.name = name → replication s t = r := by
    intro t h1 h2
    apply replication_of_asks
    rw [h1, h2]
    exact ha
  cases l with
  | client k name' datum config =>
    simp only [istep, Option.some.injEq] at h
    subst h
    exact rinv_append hi _ rfl (fun j hj => by cases hj)
  | serve j now order =>
    simp only [istep] at h
    split at h
    · rename_i t ht
      split at h
      · rename_i n hph hn
        have hno : ∀ e, t.phase ≠ .over e := by rw [hph]; intro e he; cases he
        split at h
        · cases h
          exact rinv_phase hi ht hno (by simp [Progress])
        · split at h
          · rename_i m dt hg
            split at h
            · rename_i dt' err loop hl
              split at h
              · rename_i x hx
                cases h
                have hnode : (s.nodes.set t.node { n with dataset := m.set t.name { x with data := dt' } })[t.node]? =
                    some { n with dataset := m.set t.name { x with data := dt' } } :=
                  List.getElem?_set_self (List.getElem?_eq_some_iff.mp hn).1
                have hhold : loop = true ∨ err = none → H t.node t.name t.datum := by
                  intro hle
                  obtain ⟨-, kb, e, h1, h2, h3⟩ := localInsert_holds hl hle
                  apply hH
                  exact ⟨_, { x with data := dt' }, kb, e, hnode, AMap.get?_set_self _ _ _, h1, h2, h3⟩
                refine rinv_phase (rinv_nodes hi _) ht hno ?_
                cases loop with
                | true =>
                  simp only [if_true, Progress]
                  exact ⟨hhold (Or.inl rfl), by omega, by decide, [], ⟨List.nodup_nil, by simp⟩, rfl⟩
                | false =>
                  cases err with
                  | some e => simp [Progress]
                  | none =>
                    simp only [Bool.false_eq_true, if_false, Progress]
                    refine ⟨hhold (Or.inr rfl), fun h1 h2 h3 => ?_⟩
                    exfalso
                    obtain ⟨n', x', c', g1, g2, g3, g4, -⟩ := ha'
                    rw [← h1] at g1
                    rw [← h2] at g2
                    simp only [setPhase_nodes] at g1
                    rw [hnode] at g1
                    cases g1
                    rw [AMap.get?_set_self] at g2
                    cases g2
                    exact localInsert_noloop hl rfl g3 g4 h3
              · cases h
            · cases h
          · cases h
            exact rinv_phase hi ht hno (by simp [Progress])
          · cases h
      · cases h
    · cases h
  | send j dst =>
    simp only [istep] at h
    have hend : ∀ (t : Task) (order : List SourceId) (limit : Int) (counter : UInt32), s.tasks[j]? = some t →
        t.phase = .sending order limit counter →
        RInv H i name r (setPhase s j t (.over (if counter < replication s t then some .tooFewReplicas else none))) := by
      intro t order limit counter ht hph
      have hf := hi.progress j t ht
      simp only [Progress, hph] at hf
      have hno : ∀ e, t.phase ≠ .over e := by rw [hph]; intro e he; cases he
      refine rinv_phase hi ht hno ?_
      split
      · simp [Progress]
      · rename_i hlt
        simp only [Progress]
        obtain ⟨f1, -, -, l, f2, f3⟩ := hf
        refine ⟨f1, fun h1 h2 _ => ⟨l, (ext_phase ht hno).acked f2, ?_⟩⟩
        rw [hrep t h1 h2, UInt32.not_lt, UInt32.le_iff_toNat_le] at hlt
        omega
    split at h
    · rename_i t ht
      have hf := hi.progress j t ht
      split at h
      · rename_i limit counter hph
        cases h
        exact hend t _ _ _ ht hph
      · rename_i src order limit counter hph
        have hno : ∀ e, t.phase ≠ .over e := by rw [hph]; intro e he; cases he
        simp only [Progress, hph] at hf
        split at h
        · cases h
          exact hend t _ _ _ ht hph
        · rename_i hlim
          obtain ⟨f1, f2, f3, l, f4, f5⟩ := hf
          split at h
          · rename_i dst'
            cases h
            -- the child first, then the phase
            have h1 := rinv_append hi ⟨dst', t.name, t.datum, { t.config with count := t.config.count + 1 }, some j, .begun⟩ rfl
              (fun j' hj' => by cases hj'; exact ⟨t, ht, rfl, rfl⟩)
            have hlt := (List.getElem?_eq_some_iff.mp ht).1
            have ht' : (s.tasks ++ [(⟨dst', t.name, t.datum, { t.config with count := t.config.count + 1 }, some j, .begun⟩ : Task)])[j]? =
                some t := by rw [List.getElem?_append_left hlt]; exact ht
            have h2 := rinv_phase (p := .waiting s.tasks.length order (limit - 1) counter) h1 ht' hno ?_
            · simpa [setPhase, List.set_append_left, hlt] using h2
            · simp only [Progress]
              have hnlt : ¬ s.tasks.length = j := by omega
              refine ⟨f1, by omega, by omega, ⟨⟨dst', t.name, t.datum, { t.config with count := t.config.count + 1 }, some j, .begun⟩,
                ?_, rfl⟩, l, ?_, f5, ?_⟩
              · simp only [setPhase]
                rw [List.getElem?_set_ne (by omega), List.getElem?_append_right (Nat.le_refl _)]
                simp
              · exact (ext_phase (s := { s with tasks := s.tasks ++
                  [(⟨dst', t.name, t.datum, { t.config with count := t.config.count + 1 }, some j, .begun⟩ : Task)] })
                  (p := .waiting s.tasks.length order (limit - 1) counter) ht' hno).acked ((ext_append _).acked f4)
              · intro hk
                obtain ⟨c, hc, -⟩ := f4.2 _ hk
                rw [List.getElem?_eq_none (Nat.le_refl _)] at hc
                cases hc
          · cases h
            refine rinv_phase hi ht hno ?_
            exact progress_after (ok := false) (l' := []) f1 (by omega) (by omega) ((ext_phase ht hno).acked f4) f5
              (fun hc => by cases hc) _ (fun h1 h2 => hrep t h1 h2)
      · cases h
    · cases h
  | back j =>
    simp only [istep] at h
    split at h
    · rename_i t ht
      have hf := hi.progress j t ht
      split at h
      · rename_i k order limit counter hph
        have hno : ∀ e, t.phase ≠ .over e := by rw [hph]; intro e he; cases he
        simp only [Progress, hph] at hf
        obtain ⟨f1, f2, f3, ⟨ck, hck, hckp⟩, l, f4, f5, f6⟩ := hf
        split at h
        · rename_i c hc
          have hcc : c = ck := Option.some.inj (hc.symm.trans hck)
          subst hcc
          split at h
          · rename_i err herr
            cases h
            refine rinv_phase hi ht hno ?_
            refine progress_after (ok := err.isNone) (l' := k :: l) f1 f2 f3 ((ext_phase ht hno).acked f4) f5 ?_ _ (fun h1 h2 => hrep t h1 h2)
            intro hok
            cases err with
            | some e => cases hok
            | none =>
              refine ⟨(ext_phase ht hno).acked ⟨List.nodup_cons.mpr ⟨f6, f4.1⟩, ?_⟩, rfl⟩
              intro a ha
              rcases List.mem_cons.mp ha with rfl | ha
              · exact ⟨c, hc, hckp, herr⟩
              · exact f4.2 a ha
          · cases h
            refine rinv_phase hi ht hno ?_
            exact progress_after (ok := false) (l' := []) f1 f2 f3 ((ext_phase ht hno).acked f4) f5 (fun hc => by cases hc) _
              (fun h1 h2 => hrep t h1 h2)
        · cases h
      · cases h
    · cases h
  | other k n =>
    simp only [istep, Option.some.injEq] at h
    subst h
    exact rinv_nodes hi _

theorem held_mono {X : DS.XEnv} {s0 : IState} {ls ls' : List ILabel} (h : ls <+: ls') {i : Nat} {name : String} {d : Datum}
    (hh : Held X s0 ls i name d) : Held X s0 ls' i name d := by
  obtain ⟨ls1, s1, h1, h2, h3⟩ := hh
  exact ⟨ls1, s1, h1.trans h, h2, h3⟩

theorem snoc_induction {α : Type} {P : List α → Prop} (h0 : P []) (h1 : ∀ l a, P l → P (l ++ [a])) (l : List α) : P l := by
  have : ∀ l : List α, P l.reverse := by
    intro l
    induction l with
    | nil => exact h0
    | cons a l ih => rw [List.reverse_cons]; exact h1 _ _ ih
  have h := this l.reverse
  rwa [List.reverse_reverse] at h

theorem rinv_exec {X : DS.XEnv} {nodes : List Node} {i : Nat} {name : String} {r : UInt32} (ls : List ILabel) :
    ∀ s, iexec X ⟨nodes, []⟩ ls = some s → AlwaysAsks X ⟨nodes, []⟩ ls i name r → RInv (Held X ⟨nodes, []⟩ ls) i name r s := by
  induction ls using snoc_induction with
  | h0 =>
    intro s h _
    cases h
    exact ⟨fun j t ht => by simp at ht, fun k j c t hk => by simp at hk, fun k j c hk => by simp at hk⟩
  | h1 ls l ih =>
    intro s h ha
    have h0 := h
    rw [iexec_append] at h
    cases hs : iexec X ⟨nodes, []⟩ ls with
    | none => rw [hs] at h; cases h
    | some s1 =>
      rw [hs] at h
      simp only [Option.bind_some, iexec] at h
      cases hstep : istep X s1 l with
      | none => rw [hstep] at h; cases h
      | some s2 =>
        rw [hstep] at h
        cases h
        have hpre : ls <+: ls ++ [l] := List.prefix_append ls [l]
        have h1 := ih s1 hs (fun ls1 t h1 h2 => ha ls1 t (h1.trans hpre) h2)
        refine rinv_step (rinv_mono (fun a b d hd => held_mono hpre hd) h1) (ha ls s1 hpre hs) (ha _ _ (List.prefix_refl _) h0) ?_ hstep
        intro a b d hd
        exact ⟨_, _, List.prefix_refl _, h0, hd⟩

end Clu

open Clu Net

/-- C99: if a data set asks for `r` replicas, an insert of a client that was acknowledged has been stored on `r` nodes. -/
def C99_replicas_statement : Prop :=
  ∀ (X : DS.XEnv) (nodes : List Node) (ls : List ILabel) (s : IState) (j : Nat) (t : Task) (r : UInt32), X.Ok →
    iexec X ⟨nodes, []⟩ ls = some s → s.tasks[j]? = some t → t.phase = .over none → t.config.count = 0 →
    AlwaysAsks X ⟨nodes, []⟩ ls t.node t.name r →
    ∃ l : List Nat, l.Nodup ∧ r.toNat ≤ l.length ∧ ∀ i ∈ l, Held X ⟨nodes, []⟩ ls i t.name t.datum

/-- C99: `r` requests (this one and those it caused) were acknowledged, each after the node it reached had stored the datum. -/
theorem C99_requests_stored (X : DS.XEnv) (nodes : List Node) (ls : List ILabel) (s : IState) (j : Nat) (t : Task) (r : UInt32)
    (h : iexec X ⟨nodes, []⟩ ls = some s) (ht : s.tasks[j]? = some t) (hp : t.phase = .over none) (hc : t.config.count = 0)
    (ha : AlwaysAsks X ⟨nodes, []⟩ ls t.node t.name r) :
    ∃ l : List Nat, l.Nodup ∧ r.toNat ≤ l.length ∧ ∀ k ∈ l, ∃ c, s.tasks[k]? = some c ∧ (k = j ∨ c.parent = some j) ∧
      c.phase = .over none ∧ c.name = t.name ∧ c.datum = t.datum ∧ Held X ⟨nodes, []⟩ ls c.node t.name t.datum := by
  have hi := rinv_exec ls s h ha
  have hf := hi.progress j t ht
  simp only [Progress, hp] at hf
  obtain ⟨f1, f2⟩ := hf
  obtain ⟨l, f3, f4⟩ := f2 trivial trivial hc
  have hjl : j ∉ l := by
    intro hj
    obtain ⟨c, h1, h2, -⟩ := f3.2 j hj
    have hii : IInv s := iinv_exec ls (s := ⟨nodes, []⟩) ⟨fun j t ht => by simp at ht, fun t ht => by simp at ht⟩ h
    rw [ht] at h1
    cases h1
    exact (hii.parents t (List.mem_of_getElem? ht) j h2).2 hc
  refine ⟨j :: l, List.nodup_cons.mpr ⟨hjl, f3.1⟩, by simp; omega, ?_⟩
  intro k hk
  rcases List.mem_cons.mp hk with rfl | hk
  · exact ⟨t, ht, Or.inl rfl, hp, rfl, rfl, f1⟩
  · obtain ⟨c, h1, h2, h3⟩ := f3.2 k hk
    obtain ⟨h4, h5⟩ := hi.same k j c t h1 h2 ht
    have hfc := hi.progress k c h1
    simp only [Progress, h3] at hfc
    exact ⟨c, h1, Or.inr h2, h3, h4, h5, by rw [← h4, ← h5]; exact hfc.1⟩

/-- C99 when the calls made for the request reached different nodes, and none of them its own. -/
theorem C99_replicas_partial (X : DS.XEnv) (nodes : List Node) (ls : List ILabel) (s : IState) (j : Nat) (t : Task) (r : UInt32)
    (h : iexec X ⟨nodes, []⟩ ls = some s) (ht : s.tasks[j]? = some t) (hp : t.phase = .over none) (hc : t.config.count = 0)
    (ha : AlwaysAsks X ⟨nodes, []⟩ ls t.node t.name r)
    (hapart : ∀ (k : Nat) (c : Task), s.tasks[k]? = some c → c.parent = some j → c.node ≠ t.node ∧
      ∀ (k' : Nat) (c' : Task), s.tasks[k']? = some c' → c'.parent = some j → k ≠ k' → c.node ≠ c'.node) :
    ∃ l : List Nat, l.Nodup ∧ r.toNat ≤ l.length ∧ ∀ i ∈ l, Held X ⟨nodes, []⟩ ls i t.name t.datum := by
  obtain ⟨l, h1, h2, h3⟩ := C99_requests_stored X nodes ls s j t r h ht hp hc ha
  let f : Nat → Nat := fun k => match s.tasks[k]? with | some c => c.node | none => 0
  refine ⟨l.map f, ?_, by simpa using h2, ?_⟩
  · have hinj : ∀ a ∈ l, ∀ b ∈ l, f a = f b → a = b := by
      intro a ha' b hb hab
      obtain ⟨ca, a1, a2, -⟩ := h3 a ha'
      obtain ⟨cb, b1, b2, -⟩ := h3 b hb
      simp only [f, a1, b1] at hab
      rcases a2 with rfl | a2
      · rcases b2 with rfl | b2
        · rfl
        · rw [ht] at a1; cases a1
          exact absurd hab.symm (hapart b cb b1 b2).1
      · rcases b2 with rfl | b2
        · rw [ht] at b1; cases b1
          exact absurd hab (hapart a ca a1 a2).1
        · exact Classical.byContradiction fun hne => (hapart a ca a1 a2).2 b cb b1 b2 hne hab
    clear h2 h3
    induction l with
    | nil => simp
    | cons a l ih =>
      rw [List.map_cons, List.nodup_cons]
      refine ⟨?_, ih (List.nodup_cons.mp h1).2 (fun x hx y hy => hinj x (List.mem_cons_of_mem _ hx) y (List.mem_cons_of_mem _ hy))⟩
      intro hm
      obtain ⟨b, hb, hfb⟩ := List.mem_map.mp hm
      have := hinj a List.mem_cons_self b (List.mem_cons_of_mem _ hb) hfb.symm
      subst this
      exact (List.nodup_cons.mp h1).1 hb
  · intro i hi
    obtain ⟨k, hk, rfl⟩ := List.mem_map.mp hi
    obtain ⟨c, c1, -, -, -, -, c6⟩ := h3 k hk
    simp only [f, c1]
    exact c6

namespace Clu

theorem istep_length {X : DS.XEnv} {s s' : IState} {l : ILabel} (h : istep X s l = some s') : s'.nodes.length = s.nodes.length := by
  cases l <;> simp only [istep] at h
  all_goals
    repeat' split at h
    all_goals first
      | cases h; done
      | (simp only [Option.some.injEq] at h; subst h; simp [setPhase])

theorem iexec_length {X : DS.XEnv} : ∀ (ls : List ILabel) {s s' : IState}, iexec X s ls = some s' → s'.nodes.length = s.nodes.length
  | [], _, _, h => by cases h; rfl
  | l :: ls, s, s', h => by
    rw [iexec] at h
    cases hs : istep X s l with
    | none => rw [hs] at h; cases h
    | some s1 => rw [hs] at h; rw [iexec_length ls h, istep_length hs]

/-- A check of `Asks` by evaluation. -/
def asks? (i : Nat) (name : String) (r : UInt32) (s : IState) : Bool :=
  (s.nodes[i]?).any fun (n : Node) => (n.dataset.get? name).any fun (x : DS.Slot) => x.data.config.any fun (c : DataConfig) =>
    c.enforceReplicationOnInsert && c.replicationOnInsert == r

theorem asks?_sound {i : Nat} {name : String} {r : UInt32} {s : IState} (h : asks? i name r s = true) : Asks s i name r := by
  obtain ⟨n, h1, h⟩ := DS.any_some h
  obtain ⟨x, h2, h⟩ := DS.any_some h
  obtain ⟨c, h3, h⟩ := DS.any_some h
  simp only [Bool.and_eq_true, beq_iff_eq] at h
  exact ⟨n, x, c, h1, h2, h3, h.1, h.2⟩

theorem alwaysAsks_of {X : DS.XEnv} {s0 : IState} {ls : List ILabel} {i : Nat} {name : String} {r : UInt32}
    (h : ((List.range (ls.length + 1)).all fun k => (iexec X s0 (ls.take k)).all (asks? i name r)) = true) : AlwaysAsks X s0 ls i name r := by
  intro ls1 s1 h1 h2
  rw [List.all_eq_true] at h
  have := h ls1.length (List.mem_range.mpr (by have := h1.length_le; omega))
  rw [← List.prefix_iff_eq_take.mp h1, h2] at this
  exact asks?_sound this

/-- The only call comes back to the node itself: one of its addresses is not among those it knows. -/
def exSelf : List ILabel := [.client 0 "a" exD ⟨0, 0⟩, .serve 0 0 ["x", "y"], .send 0 (some 0), .serve 1 0 [], .back 0,
  .send 0 (some 0), .serve 2 0 [], .back 0]

/-- Three nodes and a call that fails. -/
def exThree : List ILabel := [.client 0 "a" exD ⟨0, 0⟩, .serve 0 0 ["x", "y", "z"], .send 0 (some 1), .serve 1 0 [], .back 0,
  .send 0 none, .send 0 (some 2), .serve 2 0 [], .back 0]

end Clu

theorem C99_replicas_fails : ¬ C99_replicas_statement := by
  intro h
  have hx : (iexec (DS.toy 0) ⟨[exM], []⟩ exSelf).any (fun (s : IState) => (s.tasks[0]?).any fun (t : Task) =>
      decide (t.node = 0 ∧ t.name = "a" ∧ t.config.count = 0) && (match t.phase with | .over none => true | _ => false)) = true := by
    decide +kernel
  obtain ⟨s, hs, hx⟩ := DS.any_some hx
  obtain ⟨t, ht, hx⟩ := DS.any_some hx
  simp only [Bool.and_eq_true, decide_eq_true_eq] at hx
  obtain ⟨⟨h1, h2, h3⟩, h4⟩ := hx
  have hp : t.phase = .over none := by
    revert h4
    split
    · rename_i hp; intro _; exact hp
    · intro h; cases h
  have hask : AlwaysAsks (DS.toy 0) ⟨[exM], []⟩ exSelf t.node t.name 3 := by
    rw [h1, h2]
    exact alwaysAsks_of (by decide +kernel)
  obtain ⟨l, g1, g2, g3⟩ := h (DS.toy 0) [exM] exSelf s 0 t 3 (DS.toy_ok 0) hs ht hp h3 hask
  have hzero : ∀ i ∈ l, i = 0 := by
    intro i hi
    obtain ⟨ls1, s1, -, k2, n, x, kb, e, k3, -⟩ := g3 i hi
    have hlen := iexec_length _ k2
    have := (List.getElem?_eq_some_iff.mp k3).1
    simp only [List.length_singleton] at hlen
    omega
  match l, g1, g2, hzero with
  | [], _, g2, _ => exact absurd g2 (by decide)
  | [a], _, g2, _ => exact absurd g2 (by simp)
  | a :: b :: _, g1, _, hz =>
    have ha := hz a (by simp)
    have hb := hz b (by simp)
    rw [ha, hb] at g1
    simp at g1

/-- An acknowledged insert on three nodes that meets the hypotheses of `C99_replicas_partial`. -/
example : ∃ s t, iexec (DS.toy 0) ⟨[exM, exM, exM], []⟩ exThree = some s ∧ s.tasks[0]? = some t ∧ t.phase = .over none ∧ t.config.count = 0 ∧
    AlwaysAsks (DS.toy 0) ⟨[exM, exM, exM], []⟩ exThree t.node t.name 3 ∧ s.tasks.map (·.parent) = [none, some 0, some 0] ∧
    s.tasks.map (·.node) = [0, 1, 2] := by
  have hx : (iexec (DS.toy 0) ⟨[exM, exM, exM], []⟩ exThree).any (fun (s : IState) => decide (s.tasks.map (·.parent) = [none, some 0, some 0] ∧
      s.tasks.map (·.node) = [0, 1, 2]) && (s.tasks[0]?).any fun (t : Task) =>
      decide (t.node = 0 ∧ t.name = "a" ∧ t.config.count = 0) && (match t.phase with | .over none => true | _ => false)) = true := by
    decide +kernel
  obtain ⟨s, hs, hx⟩ := DS.any_some hx
  simp only [Bool.and_eq_true, decide_eq_true_eq] at hx
  obtain ⟨⟨q1, q2⟩, hx⟩ := hx
  obtain ⟨t, ht, hx⟩ := DS.any_some hx
  simp only [Bool.and_eq_true, decide_eq_true_eq] at hx
  obtain ⟨⟨h1, h2, h3⟩, h4⟩ := hx
  have hp : t.phase = .over none := by
    revert h4
    split
    · rename_i hp; intro _; exact hp
    · intro h; cases h
  exact ⟨s, t, hs, ht, hp, h3, by rw [h1, h2]; exact alwaysAsks_of (by decide +kernel), q1, q2⟩

end Veri
