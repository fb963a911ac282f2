import Verif.Dataset.Model
/-
Facts about the operations of Verif/Dataset/Model.
-/
set_option autoImplicit false
namespace Veri
namespace DS

/-- Every data set has a configuration, with the name it is listed under, and is listed once. -/
def WF (m : DL) : Prop := m.Nodup ∧ ∀ k s, m.get? k = some s → ∃ c, s.data.config = some c ∧ c.name = k

theorem wf_nil : WF [] := ⟨AMap.nodup_nil, by intro k s h; simp at h⟩

theorem expiry_live (now d : Int) (dt : Data) : live now ⟨dt, expiry now d⟩ = true := by
  unfold live expiry second
  split
  · rfl
  · rename_i e he
    simp only at he
    split at he
    · simp only [Option.some.injEq] at he; simp; omega
    · split at he
      · simp only [Option.some.injEq] at he; simp; omega
      · exact absurd he (by simp)

theorem lookup_some {now : Int} {m : DL} {k : String} {s : Slot} :
    lookup now m k = some s ↔ m.get? k = some s ∧ live now s = true := by
  unfold lookup
  rw [Option.filter_eq_some_iff]

theorem lookup_none {now : Int} {m : DL} {k : String} :
    lookup now m k = none ↔ ∀ s, m.get? k = some s → live now s = false := by
  unfold lookup
  rw [Option.filter_eq_none_iff]
  constructor
  · intro h s hs; simpa using h s hs
  · intro h s hs; simp [h s hs]

theorem lookup_congr {now : Int} {m m' : DL} {k : String} (h : m.get? k = m'.get? k) : lookup now m k = lookup now m' k := by
  unfold lookup; rw [h]

theorem lookup_set_self {now : Int} {m : DL} {k : String} {s : Slot} :
    lookup now (m.set k s) k = if live now s then some s else none := by
  unfold lookup
  rw [AMap.get?_set_self]
  simp [Option.filter]

theorem lookup_set_ne {now : Int} {m : DL} {k k' : String} {s : Slot} (h : k ≠ k') :
    lookup now (m.set k s) k' = lookup now m k' := lookup_congr (AMap.get?_set_ne m s h)

theorem wf_set {m : DL} (h : WF m) {k : String} {s : Slot} {c : DataConfig} (hc : s.data.config = some c) (hk : c.name = k) :
    WF (m.set k s) := by
  refine ⟨AMap.nodup_set h.1 _ _, fun k' s' h' => ?_⟩
  rw [AMap.get?_set] at h'
  split at h'
  · rename_i e
    injection h' with h'
    exact ⟨c, h' ▸ hc, by rw [← e]; exact hk⟩
  · exact h.2 _ _ h'

theorem wf_erase {m : DL} (h : WF m) (k : String) : WF (m.erase k) := by
  refine ⟨AMap.nodup_erase h.1 _, fun k' s' h' => ?_⟩
  rw [AMap.get?_erase] at h'
  split at h'
  · exact absurd h' (by simp)
  · exact h.2 _ _ h'

/-- `CreateIfNotExists` on a name that is not listed. -/
theorem create_new {now : Int} {m : DL} {c : DataConfig} (h : lookup now m c.name = none) :
    createIfNotExists now m c = .ok (m.set c.name ⟨Data.newData c, expiry now (getRetention c.retention)⟩) := by
  unfold createIfNotExists Data.newData
  rw [h]

/-- `CreateIfNotExists` on a name that is listed. -/
theorem create_old {now : Int} {m : DL} {c c0 : DataConfig} {s : Slot} (h : lookup now m c.name = some s)
    (h0 : s.data.config = some c0) :
    createIfNotExists now m c = .ok (if c.version > c0.version then
      m.set c.name { s with data := { s.data with config := some c } } else m) := by
  unfold createIfNotExists
  rw [h]
  simp only [h0, Res.ofOption, Res.bind]
  split <;> rfl

theorem create_ok {now : Int} {m : DL} (hw : WF m) (c : DataConfig) :
    ∃ m', createIfNotExists now m c = .ok m' ∧ WF m' ∧ (lookup now m' c.name).isSome = true ∧
      ∀ k, k ≠ c.name → m'.get? k = m.get? k := by
  cases h : lookup now m c.name with
  | none =>
    refine ⟨_, create_new h, wf_set hw (c := c) ?_ rfl, ?_, fun k hk => AMap.get?_set_ne _ _ hk.symm⟩
    · rfl
    · rw [lookup_set_self, expiry_live]; rfl
  | some s =>
    obtain ⟨c0, h0, h1⟩ := hw.2 _ _ (lookup_some.mp h).1
    refine ⟨_, create_old h h0, ?_⟩
    split
    · refine ⟨wf_set hw (c := c) rfl rfl, ?_, fun k hk => AMap.get?_set_ne _ _ hk.symm⟩
      rw [lookup_set_self]
      have : live now { s with data := { s.data with config := some c } } = live now s := rfl
      rw [this, (lookup_some.mp h).2]
      rfl
    · exact ⟨hw, by rw [h]; rfl, fun k hk => rfl⟩

theorem newData_config (c : DataConfig) : (Data.newData c).config = some c := rfl

theorem touch_ok {X : XEnv} {now : Int} {m : DL} {name : String} {s : Slot} {c : DataConfig} (h0 : s.data.config = some c) :
    touch X now m name s =
      .ok (m.set name { s with expires := X.extend s.expires now (getRetention c.retention) }, s.data) := by
  unfold touch
  rw [h0]
  rfl

/-- `Get` on a name that is listed. -/
theorem get_old {X : XEnv} {now : Int} {m : DL} {name : String} {s : Slot} {c : DataConfig} (h : lookup now m name = some s)
    (h0 : s.data.config = some c) :
    get X now m name =
      .ok (m.set name { s with expires := X.extend s.expires now (getRetention c.retention) }, s.data) := by
  unfold get
  rw [h]
  exact touch_ok h0

/-- `Get` on a name that is not listed. -/
theorem get_new {X : XEnv} {now : Int} {m : DL} {name : String} (h : lookup now m name = none) :
    get X now m name = .ok ((m.set name ⟨Data.newData (defaultConfig name), expiry now (getRetention 0)⟩).set name
      ⟨Data.newData (defaultConfig name), X.extend (expiry now (getRetention 0)) now (getRetention 0)⟩,
      Data.newData (defaultConfig name)) := by
  unfold get
  rw [h]
  have hc := create_new (c := defaultConfig name) h
  simp only
  rw [hc]
  simp only [Res.bind]
  have : lookup now (AMap.set m (defaultConfig name).name
      ⟨Data.newData (defaultConfig name), expiry now (getRetention (defaultConfig name).retention)⟩) name =
      some ⟨Data.newData (defaultConfig name), expiry now (getRetention 0)⟩ := by
    have : (defaultConfig name).name = name := rfl
    rw [this, lookup_set_self, expiry_live]
    rfl
  rw [this]
  exact touch_ok (c := defaultConfig name) rfl

/-- With one reading of the clock `Get` always answers; other data sets are not changed. -/
theorem get_ok {X : XEnv} {now : Int} {m : DL} (hw : WF m) (name : String) :
    ∃ m' d c, get X now m name = .ok (m', d) ∧ d.config = some c ∧ c.name = name ∧ WF m' ∧
      (∀ k, k ≠ name → m'.get? k = m.get? k) ∧
      (∀ s, lookup now m name = some s → d = s.data ∧ m'.get? name = some { s with
        expires := X.extend s.expires now (getRetention c.retention) }) := by
  cases h : lookup now m name with
  | none =>
    refine ⟨_, _, _, get_new h, newData_config _, rfl, ?_, ?_, by simp⟩
    · exact wf_set (c := defaultConfig name) (wf_set (c := defaultConfig name) hw rfl rfl) rfl rfl
    · intro k hk
      rw [AMap.get?_set_ne _ _ hk.symm, AMap.get?_set_ne _ _ hk.symm]
  | some s =>
    obtain ⟨c, h0, h1⟩ := hw.2 _ _ (lookup_some.mp h).1
    refine ⟨_, _, c, get_old h h0, h0, h1, wf_set hw (c := c) h0 h1, fun k hk => AMap.get?_set_ne _ _ hk.symm, ?_⟩
    intro s' hs'
    injection hs' with hs'
    subst hs'
    exact ⟨rfl, AMap.get?_set_self _ _ _⟩

theorem mem_names {now : Int} {m : DL} (hn : m.Nodup) {k : String} : k ∈ names now m ↔ (lookup now m k).isSome = true := by
  unfold names
  simp only [List.mem_map, List.mem_filter]
  constructor
  · rintro ⟨⟨k', s⟩, ⟨h1, h2⟩, rfl⟩
    rw [lookup_some.mpr ⟨AMap.get?_of_mem hn h1, h2⟩]
    rfl
  · intro h
    cases hl : lookup now m k with
    | none => rw [hl] at h; exact absurd h (by simp)
    | some s => exact ⟨(k, s), ⟨AMap.mem_of_get? (lookup_some.mp hl).1, (lookup_some.mp hl).2⟩, rfl⟩

theorem nodup_names {now : Int} {m : DL} (hn : m.Nodup) : (names now m).Nodup := by
  unfold names
  exact List.Nodup.sublist ((List.filter_sublist).map _) hn

/-! ### The lines of the index -/

theorem readLines_none : ∀ (l acc : Bytes), (10 : UInt8) ∉ l → readLines acc l = []
  | [], _, _ => rfl
  | b :: bs, acc, h => by
    have hb : b ≠ 10 := fun e => h (by simp [e])
    rw [readLines, if_neg hb]
    exact readLines_none bs _ (fun e => h (List.mem_cons_of_mem _ e))

theorem readLines_line : ∀ (l acc rest : Bytes), (10 : UInt8) ∉ l →
    readLines acc (l ++ 10 :: rest) = (acc ++ l ++ [10]) :: readLines [] rest
  | [], acc, rest, _ => by simp [readLines]
  | b :: bs, acc, rest, h => by
    have hb : b ≠ 10 := fun e => h (by simp [e])
    rw [List.cons_append, readLines, if_neg hb, readLines_line bs _ _ (fun e => h (List.mem_cons_of_mem _ e))]
    simp

/-- Each line is what was written, and nothing else. -/
theorem readLines_flatten : ∀ ls : List Bytes, (∀ l ∈ ls, (10 : UInt8) ∉ l) →
    readLines [] ((ls.map (· ++ [10])).flatten) = ls.map (· ++ [10])
  | [], _ => rfl
  | l :: ls, h => by
    simp only [List.map_cons, List.flatten_cons, List.append_assoc, List.singleton_append]
    rw [readLines_line _ _ _ (h l (by simp)), readLines_flatten ls (fun l' hl => h l' (by simp [hl]))]
    simp

/-- A prefix of the file has a prefix of the lines. -/
theorem readLines_prefix : ∀ (ls : List Bytes) (p : Bytes), (∀ l ∈ ls, (10 : UInt8) ∉ l) →
    p <+: (ls.map (· ++ [10])).flatten → ∃ j, readLines [] p = (ls.take j).map (· ++ [10])
  | [], p, _, hp => by
    simp only [List.map_nil, List.flatten_nil, List.prefix_nil] at hp
    subst hp
    exact ⟨0, rfl⟩
  | l :: ls, p, h, hp => by
    simp only [List.map_cons, List.flatten_cons] at hp
    by_cases hlen : p.length ≤ l.length
    · have hpl : p <+: l := by
        rw [List.append_assoc] at hp
        exact List.prefix_of_prefix_length_le hp (List.prefix_append _ _) hlen
      exact ⟨0, by rw [readLines_none _ _ (fun e => h l (by simp) (hpl.subset e))]; rfl⟩
    · obtain ⟨q, rfl⟩ : ∃ q, p = (l ++ [10]) ++ q := by
        have : (l ++ [10]) <+: p :=
          List.prefix_of_prefix_length_le (List.prefix_append _ _) hp (by simp; omega)
        exact this.imp fun _ h => h.symm
      have hq : q <+: (ls.map (· ++ [10])).flatten := (List.prefix_append_right_inj _).mp hp
      obtain ⟨j, hj⟩ := readLines_prefix ls q (fun l' hl => h l' (by simp [hl])) hq
      refine ⟨j + 1, ?_⟩
      rw [List.append_assoc, List.singleton_append, readLines_line _ _ _ (h l (by simp)), hj]
      simp

/-- What a line stands for when it is read back. -/
def back (X : XEnv) (c : DataConfig) : Option DataConfig := X.unmarshal (line X c)

theorem line_eq (X : XEnv) (c : DataConfig) : line X c = (X.marshal c).getD [] ++ [10] := rfl

/-- Configurations that can be written: with a utilization that is a number, or one that gives an error. -/
def NoNegZero (c : DataConfig) : Prop := c.targetUtilization ≠ 0x8000000000000000

/-- The utilization is finite. -/
def Finite (c : DataConfig) : Prop := F64.mag c.targetUtilization < 0x7FF0000000000000

instance (c : DataConfig) : Decidable (Finite c) := by unfold Finite; infer_instance

theorem back_plain {X : XEnv} (hX : X.Ok) {c : DataConfig} (hz : NoNegZero c) :
    back X c = (if Finite c then some c else none) ∧ (10 : UInt8) ∉ (X.marshal c).getD [] := by
  unfold back line
  by_cases hf : Finite c
  · obtain ⟨l, h1, h2, h3⟩ := hX.plain c ⟨hf, hz⟩
    rw [h1]
    exact ⟨by rw [if_pos hf]; exact h3, h2⟩
  · rw [hX.notNumber c hf, if_neg hf]
    exact ⟨hX.empty, by simp⟩

theorem readLines_content {X : XEnv} (hX : X.Ok) {cs : List DataConfig} (hz : ∀ c ∈ cs, NoNegZero c) :
    readLines [] (content X cs) = cs.map (line X) := by
  have := readLines_flatten (cs.map fun c => (X.marshal c).getD []) (by
    intro l hl
    obtain ⟨c, hc, rfl⟩ := List.mem_map.mp hl
    exact (back_plain hX (hz c hc)).2)
  rw [List.map_map] at this
  exact this

theorem readLines_content_prefix {X : XEnv} (hX : X.Ok) {cs : List DataConfig} (hz : ∀ c ∈ cs, NoNegZero c) {p : Bytes}
    (hp : p <+: content X cs) : ∃ j, readLines [] p = (cs.take j).map (line X) := by
  have := readLines_prefix (cs.map fun c => (X.marshal c).getD []) p (by
    intro l hl
    obtain ⟨c, hc, rfl⟩ := List.mem_map.mp hl
    exact (back_plain hX (hz c hc)).2) (by rw [List.map_map]; exact hp)
  obtain ⟨j, hj⟩ := this
  refine ⟨j, hj.trans ?_⟩
  rw [← List.map_take, List.map_map]
  rfl

/-- The configuration listed under a name. -/
def configOf (m : DL) (k : String) : Option DataConfig := (m.get? k).bind fun s => s.data.config

/-- The configuration of a live data set. -/
def liveConfig (now : Int) (m : DL) (k : String) : Option DataConfig := (lookup now m k).bind fun s => s.data.config

/-- Loading lines of configurations with different names adds each that can be read. -/
theorem loadLines_spec {X : XEnv} (hX : X.Ok) (now : Int) : ∀ (cs : List DataConfig) (m : DL), WF m →
    (∀ c ∈ cs, NoNegZero c) → (cs.map (·.name)).Nodup → (∀ c ∈ cs, m.get? c.name = none) →
    ∃ m', loadLines X now (cs.map (line X)) m = .ok m' ∧ WF m' ∧
      ∀ k, m'.get? k = match cs.find? (fun c => c.name = k ∧ Finite c) with
        | some c => some ⟨Data.newData c, expiry now (getRetention c.retention)⟩
        | none => m.get? k
  | [], m, hw, _, _, _ => ⟨m, rfl, hw, fun k => rfl⟩
  | c :: cs, m, hw, hz, hn, hm => by
    simp only [List.map_cons, List.nodup_cons] at hn
    have hb := (back_plain hX (hz c (by simp))).1
    unfold back at hb
    by_cases hf : Finite c
    · rw [if_pos hf] at hb
      have hl : lookup now m c.name = none := lookup_none.mpr (by rw [hm c (by simp)]; simp)
      have hcr := create_new hl
      have hw' : WF (m.set c.name ⟨Data.newData c, expiry now (getRetention c.retention)⟩) :=
        wf_set hw (newData_config c) rfl
      obtain ⟨m', h1, h2, h3⟩ := loadLines_spec hX now cs _ hw' (fun c' h => hz c' (by simp [h])) hn.2 (fun c' h => by
        rw [AMap.get?_set_ne _ _ (fun e => hn.1 (List.mem_map.mpr ⟨c', h, e.symm⟩))]
        exact hm c' (by simp [h]))
      refine ⟨m', ?_, h2, fun k => ?_⟩
      · simp only [List.map_cons, loadLines, hb, hcr, Res.bind]
        exact h1
      · rw [h3 k, List.find?_cons]
        by_cases hk : c.name = k
        · have : cs.find? (fun c => c.name = k ∧ Finite c) = none := by
            rw [List.find?_eq_none]
            intro c' hc' he
            simp only [decide_eq_true_eq] at he
            exact hn.1 (List.mem_map.mpr ⟨c', hc', he.1.trans hk.symm⟩)
          rw [this]
          simp only [hk, hf, and_self, decide_true]
          rw [AMap.get?_set_self]
        · simp only [hk, false_and, decide_false]
          rw [AMap.get?_set_ne _ _ hk]
    · rw [if_neg hf] at hb
      obtain ⟨m', h1, h2, h3⟩ := loadLines_spec hX now cs m hw (fun c' h => hz c' (by simp [h])) hn.2
        (fun c' h => hm c' (by simp [h]))
      refine ⟨m', ?_, h2, fun k => ?_⟩
      · simp only [List.map_cons, loadLines, hb]
        exact h1
      · rw [h3 k, List.find?_cons]
        simp only [hf, and_false, decide_false]

/-- A walk over live names visits each data set as it is, and only moves expiry times. -/
theorem walk_spec {X : XEnv} (now : Int) : ∀ (ks : List String) (m : DL), WF m → ks.Nodup →
    (∀ k ∈ ks, (lookup now m k).isSome = true) →
    ∃ m' cs, walk X now ks m = .ok (m', cs) ∧ WF m' ∧ cs.map (·.name) = ks ∧
      (∀ c ∈ cs, liveConfig now m c.name = some c) ∧
      (∀ k, (m'.get? k).map (·.data) = (m.get? k).map (·.data))
  | [], m, hw, _, _ => ⟨m, [], rfl, hw, rfl, by simp, fun k => rfl⟩
  | k :: ks, m, hw, hn, hl => by
    obtain ⟨m1, d, c, h1, h2, h3, h4, h5, h6⟩ := get_ok (X := X) (now := now) hw k
    cases hs : lookup now m k with
    | none => have := hl k (by simp); rw [hs] at this; exact absurd this (by simp)
    | some s =>
      obtain ⟨h7, h8⟩ := h6 s hs
      have hn' := List.nodup_cons.mp hn
      obtain ⟨m', cs, g1, g2, g3, g4, g5⟩ := walk_spec (X := X) now ks m1 h4 hn'.2 (fun k' hk' => by
        rw [lookup_congr (h5 k' (fun e => hn'.1 (e ▸ hk')))]
        exact hl k' (by simp [hk']))
      refine ⟨m', c :: cs, ?_, g2, ?_, ?_, fun k' => ?_⟩
      · simp only [walk, h1, Res.bind, h2, Res.ofOption, g1]
      · simp [h3, g3]
      · intro c' hc'
        rcases List.mem_cons.mp hc' with rfl | hc'
        · unfold liveConfig
          rw [h3, hs]
          simp only [Option.bind_some]
          rw [← h7]
          exact h2
        · rw [← g4 c' hc']
          unfold liveConfig
          rw [lookup_congr (h5 c'.name (fun e => hn'.1 (e ▸ g3 ▸ List.mem_map.mpr ⟨c', hc', rfl⟩)))]
      · rw [g5 k']
        by_cases hk : k' = k
        · subst hk
          rw [h8, (lookup_some.mp hs).1]
          rfl
        · rw [h5 k' hk]

end DS
end Veri
