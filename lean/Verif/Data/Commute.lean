import Verif.Data.Props
/-
C183: the order of inserts of different data, and repeated inserts.
-/
set_option autoImplicit false
namespace Veri
namespace Data

/-- The same data set, as far as anybody can see: the order in which a `sync.Map` keeps its entries is not observable. -/
def Same (a b : Data) : Prop := { a with dbMap := [] } = { b with dbMap := [] } ∧ ∀ k, a.dbMap.get? k = b.dbMap.get? k

end Data
namespace Store

/-- Whether an insert for a key writes, by the entry that is there; `none`: it crashes. -/
def verdict (now : Int64) (old : Option Entry) (d : Datum) (c : Option InsertConfig) : Option Bool :=
  match old with
  | none => some true
  | some e =>
    match getValueAsBytes d, getValueAsBytes e.datum with
    | some v, some v' => some (!decide (v = v' ∧ closeEnough (expireAtOf now c) e.expireAt = true))
    | _, _ => none

theorem insertBDMap_verdict (now : Int64) (m : DBMap) (d : Datum) (c : Option InsertConfig) {k : Bytes} (hk : getKeyAsBytes d = some k) :
    insertBDMap now m (some d) c = match verdict now (m.get? k) d c with
      | none => .panic
      | some b => .ok (if b then m.set k ⟨expireAtOf now c, d⟩ else m, b) := by
  unfold insertBDMap verdict
  simp only [Res.ofOption_some, Res.bind_eq, Res.bind_ok, hk, encodeToString]
  cases hg : m.get? k with
  | none => rfl
  | some e =>
    simp only
    cases hv : getValueAsBytes d with
    | none => rfl
    | some v =>
      cases hv' : getValueAsBytes e.datum with
      | none => rfl
      | some v' =>
        simp only [Res.ofOption_some, Res.bind_ok]
        split <;> rename_i h <;> simp [h] <;> rfl

end Store
namespace Data

/-- What an insert does after it has written: calls and the answer. -/
def rest {σ : Type} (cfg : Option DataConfig) (src : Option (AMap SourceId Int)) (order : List SourceId) (call : RemoteInsert σ) (w : σ)
    (d : Datum) (config : Option InsertConfig) : Res (σ × Option InsertConfig × Option Err) :=
  (Res.ofOption cfg).bind fun dc =>
  if dc.enforceReplicationOnInsert = true ∧ (config.getD ⟨0, 0⟩).count = 0 then
    let c := { config.getD ⟨0, 0⟩ with count := (config.getD ⟨0, 0⟩).count + 1 }
    (Res.ofOption src).bind fun _ =>
    let ((w, counter), _) := runOnSources (replicate call d c dc.replicationOnInsert) 5 order (w, 1)
    .ok (w, config.map fun _ => c, if counter < dc.replicationOnInsert then some .tooFewReplicas else none)
  else .ok (w, config, none)

/-- The data set after an insert that writes or not. -/
def after (dt : Data) (k : Bytes) (e : Entry) (b : Bool) : Data :=
  { dt.initData with
    dbMap := if b then dt.initData.dbMap.set k e else dt.initData.dbMap
    recentInsertCount := if b then dt.initData.recentInsertCount + 1 else dt.initData.recentInsertCount
    dirty := true }

theorem insert_rest {σ : Type} (now : Int64) (order : List SourceId) (call : RemoteInsert σ) (dt : Data) (w : σ) (d : Datum)
    (config : Option InsertConfig) {k : Bytes} (hk : getKeyAsBytes d = some k) (ho : dt.overTarget = false) :
    insert now order call dt w (some d) config =
      match Store.verdict now (dt.initData.dbMap.get? k) d config with
      | none => .panic
      | some b => (rest dt.initData.config dt.initData.sources order call w d config).bind fun (w, c, err) =>
          .ok ⟨after dt k ⟨Store.expireAtOf now config, d⟩ b, w, c, err⟩ := by
  unfold insert rest
  rw [if_neg (by simp [ho])]
  dsimp only
  rw [Store.insertBDMap_verdict now _ d config hk]
  cases Store.verdict now (dt.initData.dbMap.get? k) d config with
  | none => rfl
  | some b =>
    simp only [Res.bind_ok, after]
    cases hc : dt.initData.config with
    | none => rfl
    | some dc =>
      simp only [Res.ofOption_some, Res.bind_ok]
      split
      · cases hs : dt.initData.sources with
        | none => rfl
        | some src => rfl
      · rfl

theorem after_over {dt : Data} {k : Bytes} {e : Entry} {b : Bool} : (after dt k e b).overTarget = dt.overTarget := by
  have h1 : (after dt k e b).config = dt.config := initData_config dt
  have h2 : (after dt k e b).n = dt.n := by unfold after initData; split <;> rfl
  unfold overTarget
  rw [h1, h2]

theorem after_init {dt : Data} {k : Bytes} {e : Entry} {b : Bool} : (after dt k e b).initData = after dt k e b := by
  have : (after dt k e b).initialized = true := by
    unfold after initData
    split
    · rename_i h; exact h
    · rfl
  rw [initData, if_pos this]

theorem initData_twice (dt : Data) : dt.initData.initData = dt.initData := by
  unfold initData
  split
  · rename_i h; simp [h]
  · simp

theorem initData_map (dt : Data) : dt.initData.dbMap = dt.dbMap := by unfold initData; split <;> rfl

theorem insert_over {σ : Type} (now : Int64) (order : List SourceId) (call : RemoteInsert σ) (dt : Data) (w : σ) (d : Option Datum)
    (config : Option InsertConfig) (ho : dt.overTarget = true) :
    insert now order call dt w d config = .ok ⟨dt, w, config, some .overTarget⟩ := by
  unfold insert
  rw [if_pos ho]

theorem insert_key {γ : Type} {now : Int64} {o : List SourceId} {call : RemoteInsert γ} {dt : Data} {w : γ} {d : Datum} {c : Option InsertConfig}
    {out : InsertOut γ} (ho : dt.overTarget = false) (h : Data.insert now o call dt w (some d) c = .ok out) : ∃ k, getKeyAsBytes d = some k := by
  cases hk : getKeyAsBytes d with
  | some k => exact ⟨k, rfl⟩
  | none =>
    unfold Data.insert Store.insertBDMap at h
    rw [if_neg (by simp [ho])] at h
    simp only [Res.ofOption_some, Res.bind_eq, Res.bind_ok, hk] at h
    cases h

end Data
open Data

/-- C183: two inserts of data with different keys can come in either order: the data set is the same afterwards, and the requests get the
same answers, make the same calls, and neither crashes. -/
theorem C183_any_order {σ τ : Type} (now1 now2 : Int64) (o1 o2 : List SourceId) (call1 : RemoteInsert σ) (call2 : RemoteInsert τ) (dt : Data)
    (w1 : σ) (w2 : τ) (d1 d2 : Datum) (c1 c2 : Option InsertConfig) (out1 : InsertOut σ) (out2 : InsertOut τ)
    (hd : getKeyAsBytes d1 ≠ getKeyAsBytes d2) (h1 : Data.insert now1 o1 call1 dt w1 (some d1) c1 = .ok out1)
    (h2 : Data.insert now2 o2 call2 out1.data w2 (some d2) c2 = .ok out2) :
    ∃ out2' out1', Data.insert now2 o2 call2 dt w2 (some d2) c2 = .ok out2' ∧ Data.insert now1 o1 call1 out2'.data w1 (some d1) c1 = .ok out1' ∧
      Same out2.data out1'.data ∧ (out1'.world, out1'.config, out1'.err) = (out1.world, out1.config, out1.err) ∧
      (out2'.world, out2'.config, out2'.err) = (out2.world, out2.config, out2.err) := by
  cases ho : dt.overTarget with
  | true =>
    rw [insert_over _ _ _ _ _ _ _ ho] at h1 ⊢
    cases h1
    simp only at h2
    rw [insert_over _ _ _ _ _ _ _ ho] at h2
    cases h2
    exact ⟨_, _, rfl, insert_over _ _ _ _ _ _ _ ho, ⟨rfl, fun _ => rfl⟩, rfl, rfl⟩
  | false =>
    obtain ⟨k1, hk1⟩ := insert_key ho h1
    rw [insert_rest _ _ _ _ _ _ _ hk1 ho] at h1
    cases hv1 : Store.verdict now1 (dt.initData.dbMap.get? k1) d1 c1 with
    | none => rw [hv1] at h1; cases h1
    | some b1 =>
      rw [hv1] at h1
      simp only at h1
      cases hr1 : rest dt.initData.config dt.initData.sources o1 call1 w1 d1 c1 with
      | err e => rw [hr1] at h1; cases h1
      | panic => rw [hr1] at h1; cases h1
      | ok r1 =>
        rw [hr1] at h1
        obtain ⟨x1, x2, x3⟩ := r1
        simp only [Res.bind_ok, Res.ok.injEq] at h1
        subst h1
        simp only at h2
        obtain ⟨k2, hk2⟩ := insert_key (by rw [after_over]; exact ho) h2
        have hne : k1 ≠ k2 := by rintro rfl; exact hd (hk1.trans hk2.symm)
        rw [insert_rest _ _ _ _ _ _ _ hk2 (by rw [after_over]; exact ho), after_init] at h2
        have hg2 : (after dt k1 ⟨Store.expireAtOf now1 c1, d1⟩ b1).dbMap.get? k2 = dt.initData.dbMap.get? k2 := by
          unfold after
          cases b1
          · rfl
          · simp only [if_true]; rw [AMap.get?_set_ne _ _ hne]
        rw [hg2] at h2
        cases hv2 : Store.verdict now2 (dt.initData.dbMap.get? k2) d2 c2 with
        | none => rw [hv2] at h2; cases h2
        | some b2 =>
          rw [hv2] at h2
          simp only at h2
          have hcfg : (after dt k1 ⟨Store.expireAtOf now1 c1, d1⟩ b1).config = dt.initData.config := rfl
          have hsrc : (after dt k1 ⟨Store.expireAtOf now1 c1, d1⟩ b1).sources = dt.initData.sources := rfl
          rw [hcfg, hsrc] at h2
          cases hr2 : rest dt.initData.config dt.initData.sources o2 call2 w2 d2 c2 with
          | err e => rw [hr2] at h2; cases h2
          | panic => rw [hr2] at h2; cases h2
          | ok r2 =>
            rw [hr2] at h2
            obtain ⟨y1, y2, y3⟩ := r2
            simp only [Res.bind_ok, Res.ok.injEq] at h2
            subst h2
            have hg1 : (after dt k2 ⟨Store.expireAtOf now2 c2, d2⟩ b2).dbMap.get? k1 = dt.initData.dbMap.get? k1 := by
              unfold after
              cases b2
              · rfl
              · simp only [if_true]; rw [AMap.get?_set_ne _ _ (Ne.symm hne)]
            refine ⟨⟨after dt k2 ⟨Store.expireAtOf now2 c2, d2⟩ b2, y1, y2, y3⟩,
              ⟨after (after dt k2 ⟨Store.expireAtOf now2 c2, d2⟩ b2) k1 ⟨Store.expireAtOf now1 c1, d1⟩ b1, x1, x2, x3⟩, ?_, ?_, ?_, rfl, rfl⟩
            · rw [insert_rest _ _ _ _ _ _ _ hk2 ho, hv2]
              simp only
              rw [hr2]
              rfl
            · simp only
              rw [insert_rest _ _ _ _ _ _ _ hk1 (by rw [after_over]; exact ho), after_init, hg1, hv1]
              simp only
              have hcfg : (after dt k2 ⟨Store.expireAtOf now2 c2, d2⟩ b2).config = dt.initData.config := rfl
              have hsrc : (after dt k2 ⟨Store.expireAtOf now2 c2, d2⟩ b2).sources = dt.initData.sources := rfl
              rw [hcfg, hsrc, hr1]
              rfl
            · constructor
              · simp only
                rw [after, after_init, after.eq_def (after _ _ _ _), after_init]
                cases b1 <;> cases b2 <;> rfl
              · intro k
                simp only
                rw [after, after_init, after.eq_def (after _ _ _ _), after_init]
                simp only [after]
                cases b1 <;> cases b2 <;> simp only [if_true, Bool.false_eq_true, if_false]
                by_cases e1 : k = k1
                · subst e1
                  rw [AMap.get?_set_ne _ _ (Ne.symm hne), AMap.get?_set_self, AMap.get?_set_self]
                · by_cases e2 : k = k2
                  · subst e2
                    rw [AMap.get?_set_self, AMap.get?_set_ne _ _ hne, AMap.get?_set_self]
                  · rw [AMap.get?_set_ne _ _ (Ne.symm e2), AMap.get?_set_ne _ _ (Ne.symm e1), AMap.get?_set_ne _ _ (Ne.symm e1),
                      AMap.get?_set_ne _ _ (Ne.symm e2)]

namespace Data

/-- An insert that was not refused, by what it did. -/
theorem insert_wrote {σ : Type} {now : Int64} {o : List SourceId} {call : RemoteInsert σ} {dt : Data} {w : σ} {d : Datum} {c : Option InsertConfig}
    {out : InsertOut σ} {k : Bytes} (hk : getKeyAsBytes d = some k) (ho : dt.overTarget = false)
    (h : Data.insert now o call dt w (some d) c = .ok out) :
    ∃ b, Store.verdict now (dt.initData.dbMap.get? k) d c = some b ∧ out.data = after dt k ⟨Store.expireAtOf now c, d⟩ b := by
  rw [insert_rest _ _ _ _ _ _ _ hk ho] at h
  cases hv : Store.verdict now (dt.initData.dbMap.get? k) d c with
  | none => rw [hv] at h; cases h
  | some b =>
    rw [hv] at h
    simp only at h
    cases hr : rest dt.initData.config dt.initData.sources o call w d c with
    | err e => rw [hr] at h; cases h
    | panic => rw [hr] at h; cases h
    | ok r =>
      rw [hr] at h
      simp only [Res.bind_ok, Res.ok.injEq] at h
      subst h
      exact ⟨b, rfl, rfl⟩

theorem after_false {dt : Data} {k : Bytes} {e : Entry} (h1 : dt.initialized = true) (h2 : dt.dirty = true) : after dt k e false = dt := by
  unfold after
  rw [initData, if_pos h1]
  cases dt
  simp_all

end Data

/-- C183: an insert that comes a second time (any time later, with any calls) changes at most the expiry of its datum. -/
theorem C183_repeated {σ τ : Type} (now1 now2 : Int64) (o1 o2 : List SourceId) (call1 : RemoteInsert σ) (call2 : RemoteInsert τ) (dt : Data)
    (w1 : σ) (w2 : τ) (d : Datum) (c1 c2 : Option InsertConfig) (out1 : InsertOut σ) (out2 : InsertOut τ) (k : Bytes)
    (hk : getKeyAsBytes d = some k) (ho : dt.overTarget = false) (h1 : Data.insert now1 o1 call1 dt w1 (some d) c1 = .ok out1)
    (h2 : Data.insert now2 o2 call2 out1.data w2 (some d) c2 = .ok out2) :
    (∀ k', k' ≠ k → out2.data.dbMap.get? k' = out1.data.dbMap.get? k') ∧
    ∃ e1 e2, out1.data.dbMap.get? k = some e1 ∧ out2.data.dbMap.get? k = some e2 ∧ getValueAsBytes e1.datum = getValueAsBytes d ∧
      getValueAsBytes e2.datum = getValueAsBytes d ∧
      (Store.closeEnough (Store.expireAtOf now2 c2) e1.expireAt = true → out2.data = out1.data) ∧
      (Store.closeEnough (Store.expireAtOf now2 c2) e1.expireAt = false → e2 = ⟨Store.expireAtOf now2 c2, d⟩) := by
  obtain ⟨b1, hv1, hd1⟩ := insert_wrote hk ho h1
  have ho1 : out1.data.overTarget = false := by rw [hd1, after_over]; exact ho
  obtain ⟨b2, hv2, hd2⟩ := insert_wrote hk ho1 h2
  have hinit : out1.data.initData = out1.data := by rw [hd1, after_init]
  have hini : out1.data.initialized = true := by
    rw [hd1]; unfold after initData
    split
    · rename_i h; exact h
    · rfl
  have hdir : out1.data.dirty = true := by rw [hd1]; rfl
  rw [hinit] at hv2
  have he1 : ∃ e1, out1.data.dbMap.get? k = some e1 ∧ getValueAsBytes e1.datum = getValueAsBytes d := by
    rw [hd1]
    cases b1 with
    | true => exact ⟨_, AMap.get?_set_self _ _ _, rfl⟩
    | false =>
      unfold Store.verdict at hv1
      split at hv1
      · cases hv1
      · rename_i e he
        split at hv1
        · rename_i v v' hv hv'
          simp only [Option.some.injEq, Bool.not_eq_false', decide_eq_true_eq] at hv1
          exact ⟨e, he, by rw [hv, hv', hv1.1]⟩
        · cases hv1
  obtain ⟨e1, he1, hve⟩ := he1
  rw [he1] at hv2
  have hb2 : b2 = !Store.closeEnough (Store.expireAtOf now2 c2) e1.expireAt := by
    unfold Store.verdict at hv2
    simp only at hv2
    split at hv2
    · rename_i v v' hv hv'
      rw [hve, hv] at hv'
      cases hv'
      simp only [true_and, Option.some.injEq] at hv2
      rw [← hv2]
      simp
    · cases hv2
  refine ⟨?_, e1, ?_⟩
  · intro k' hne
    rw [hd2]
    unfold after
    simp only
    split
    · rw [AMap.get?_set_ne _ _ (Ne.symm hne), hinit]
    · rw [hinit]
  · cases hc : Store.closeEnough (Store.expireAtOf now2 c2) e1.expireAt with
    | true =>
      rw [hc] at hb2
      subst hb2
      have hs : out2.data = out1.data := by rw [hd2]; exact after_false hini hdir
      exact ⟨e1, he1, by rw [hs]; exact he1, hve, hve, fun _ => hs, by simp⟩
    | false =>
      rw [hc] at hb2
      subst hb2
      refine ⟨⟨Store.expireAtOf now2 c2, d⟩, he1, ?_, hve, rfl, by simp, fun _ => rfl⟩
      rw [hd2]
      exact AMap.get?_set_self _ _ _

/-- C183: ... and if it has no TTL, nothing. -/
theorem C183_repeated_forever {σ τ : Type} (now1 now2 : Int64) (o1 o2 : List SourceId) (call1 : RemoteInsert σ) (call2 : RemoteInsert τ) (dt : Data)
    (w1 : σ) (w2 : τ) (d : Datum) (c : Option InsertConfig) (out1 : InsertOut σ) (out2 : InsertOut τ) (hc : ∀ x, c = some x → x.ttl = 0)
    (h1 : Data.insert now1 o1 call1 dt w1 (some d) c = .ok out1) (h2 : Data.insert now2 o2 call2 out1.data w2 (some d) c = .ok out2) :
    out2.data = out1.data := by
  have hexp : ∀ now, Store.expireAtOf now c = 0 := by
    intro now
    unfold Store.expireAtOf
    cases c with
    | none => rfl
    | some x => simp [hc x rfl]
  cases ho : dt.overTarget with
  | true =>
    rw [insert_over _ _ _ _ _ _ _ ho] at h1
    cases h1
    simp only at h2
    rw [insert_over _ _ _ _ _ _ _ ho] at h2
    cases h2
    rfl
  | false =>
    obtain ⟨k, hk⟩ := insert_key ho h1
    obtain ⟨-, e1, e2, g1, -, -, -, g5, -⟩ := C183_repeated now1 now2 o1 o2 call1 call2 dt w1 w2 d c c out1 out2 k hk ho h1 h2
    apply g5
    obtain ⟨b1, hv1, hd1⟩ := insert_wrote hk ho h1
    rw [hexp] at hd1 ⊢
    rw [hd1] at g1
    cases b1 with
    | true =>
      have : e1 = ⟨0, d⟩ := by
        have h := AMap.get?_set_self dt.initData.dbMap k (⟨0, d⟩ : Entry)
        rw [show (after dt k ⟨0, d⟩ true).dbMap = dt.initData.dbMap.set k ⟨0, d⟩ from rfl, h] at g1
        exact (Option.some.inj g1).symm
      rw [this]
      show Store.closeEnough 0 0 = true
      decide
    | false =>
      rw [show (after dt k ⟨0, d⟩ false).dbMap = dt.initData.dbMap from rfl] at g1
      unfold Store.verdict at hv1
      rw [g1] at hv1
      simp only at hv1
      split at hv1
      · simp only [Option.some.injEq, Bool.not_eq_false', decide_eq_true_eq] at hv1
        have := hv1.2
        rw [hexp] at this
        exact this
      · cases hv1

namespace Data
/-- An insert with a TTL of a minute. -/
def exIn (now : Int64) (n : UInt32) (dt : Data) : Res (InsertOut Unit) :=
  Data.insert now [] exRefuse dt () (some ⟨some (Store.exKey n), some (Store.exVal 1)⟩) (some ⟨60, 1⟩)

def okAnd {α : Type} (r : Res α) (f : α → Bool) : Bool :=
  match r with
  | .ok a => f a
  | _ => false

theorem ok_of {α : Type} {r : Res α} {f : α → Bool} (h : okAnd r f = true) : ∃ a, r = .ok a ∧ f a = true := by
  cases r with
  | ok a => exact ⟨a, rfl, h⟩
  | err e => cases h
  | panic => cases h
end Data

/-- Two data with different keys, and the first of them again: two seconds later nothing changes, twenty seconds later its expiry does. -/
theorem C183_example : getKeyAsBytes ⟨some (Store.exKey 1), some (Store.exVal 1)⟩ ≠ getKeyAsBytes ⟨some (Store.exKey 2), some (Store.exVal 1)⟩ ∧
    ∃ out1 out2 out3 out4, exIn 1000 1 (newData exConfig) = .ok out1 ∧ exIn 1001 2 out1.data = .ok out2 ∧ out2.data.dbMap.length = 2 ∧
      exIn 1002 1 out2.data = .ok out3 ∧ out3.data = out2.data ∧ exIn 1020 1 out3.data = .ok out4 ∧
      (out4.data.dbMap.map fun e => e.2.expireAt) = [1080, 1061] := by
  refine ⟨by decide +kernel, ?_⟩
  have h : okAnd (exIn 1000 1 (newData exConfig)) (fun o1 => okAnd (exIn 1001 2 o1.data) fun o2 => okAnd (exIn 1002 1 o2.data) fun o3 =>
      okAnd (exIn 1020 1 o3.data) fun o4 =>
        decide (o2.data.dbMap.length = 2 ∧ o3.data = o2.data ∧ (o4.data.dbMap.map fun e => e.2.expireAt) = [1080, 1061])) = true := by
    decide +kernel
  obtain ⟨o1, h1, h⟩ := ok_of h
  obtain ⟨o2, h2, h⟩ := ok_of h
  obtain ⟨o3, h3, h⟩ := ok_of h
  obtain ⟨o4, h4, h⟩ := ok_of h
  simp only [decide_eq_true_eq] at h
  exact ⟨o1, o2, o3, o4, h1, h2, h.1, h3, h.2.1, h4, h.2.2⟩

end Veri
