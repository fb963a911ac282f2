import Verif.Gossip.Lemmas
import Verif.Dataset.Toy
/-
C155: the nodes of a connected cluster come to know each other.
-/
set_option autoImplicit false
set_option linter.unusedSectionVars false
namespace Veri
namespace Gossip
open Net

variable {ι : Type} [DecidableEq ι]

section
variable {W : World ι} {addr : ι → List String} {port : ι → UInt32}

theorem step_ok {X : DS.XEnv} (hX : X.Ok) (hW : W.Ok addr port) {t : Int} (hc : Clock t) {e : Ev ι} (ho : e.orders.Ok)
    (hk : ∀ c, e.kind = .create c → Keepable c) (hm : ∀ m, e.kind = .change m → Good m) (σ : ι → Node) (hσ : ∀ k, Settled addr port t k (σ k)) :
    ∃ σ', step X W t e σ = .ok σ' ∧ (∀ k, Settled addr port t k (σ' k)) ∧ Keeps addr t σ σ' ∧
      (∀ k, ¬ (e.who = k ∧ e.kind = .sync) → (σ' k).services = (σ k).services) ∧
      (e.kind = .join → ∀ j τ, j ≠ e.who → t / 1000000000 < τ + 300 → Knows addr (σ e.who) j τ → Knows addr (σ' j) e.who (t / 1000000000)) ∧
      (e.kind = .join → ∀ j, j ≠ e.who → Link W σ e.who j → Knows addr (σ' j) e.who (t / 1000000000)) ∧
      (e.kind = .sync → ∀ j k τ τ', j ≠ e.who → j ≠ k → t / 1000000000 < τ + 300 → t / 1000000000 < τ' + 300 →
        Knows addr (σ e.who) j τ → Knows addr (σ e.who) k τ' → Knows addr (σ' j) k τ') := by
  unfold step
  cases hkind : e.kind with
  | join =>
    obtain ⟨σ', h1, h2, h3, h4, h5, h6⟩ := join_ok hX hW hc ho e.who σ hσ
    exact ⟨σ', h1, h2, h3, fun k _ => h4 k, fun _ => h5, fun _ => h6, fun h => (by cases h)⟩
  | sync =>
    obtain ⟨σ', h1, h2, h3, h4, h5⟩ := sync_ok hX hW hc ho e.who σ hσ
    exact ⟨σ', h1, h2, h3, fun k hk => h4 k fun e0 => hk ⟨e0.symm, rfl⟩, fun h => (by cases h), fun h => (by cases h), fun _ => h5⟩
  | create c =>
    have hg := (hσ e.who).data
    obtain ⟨m1, a1, a2, ⟨s, c', a3, -⟩, -⟩ := good_create (now := t) hg (hk c hkind)
    obtain ⟨e', b1, b2⟩ := good_get hX a2 a3
    have hs1 := (DS.lookup_some.1 a3).1
    obtain ⟨c2, w1, w2⟩ := a2.wf.2 _ _ hs1
    have g : Good (m1.set c.name { s with expires := some e' }) :=
      good_set a2 (s := { s with expires := some e' }) w1 w2 (a2.inited _ _ hs1 : s.data.sources ≠ none) rfl (a2.keep _ _ _ hs1 w1)
    refine ⟨upd σ e.who { σ e.who with dataset := m1.set c.name { s with expires := some e' } }, ?_, upd_all hσ ?_, upd_keeps fun _ _ _ h => h, ?_,
      fun h => (by cases h), fun h => (by cases h), fun h => (by cases h)⟩
    · simp only [DS.getOrCreate, a1, Res.bind, b1]
    · exact ⟨(hσ e.who).own, (hσ e.who).port, g, (hσ e.who).nodup, (hσ e.who).recs⟩
    · intro k _
      exact upd_services (σ := σ) (n := { σ e.who with dataset := m1.set c.name { s with expires := some e' } }) rfl k
  | change m =>
    refine ⟨_, rfl, upd_all hσ ?_, upd_keeps fun _ _ _ h => h, ?_, fun h => (by cases h), fun h => (by cases h), fun h => (by cases h)⟩
    · exact ⟨(hσ e.who).own, (hσ e.who).port, hm m hkind, (hσ e.who).nodup, (hσ e.who).recs⟩
    · intro k _
      exact upd_services (σ := σ) (n := { σ e.who with dataset := m }) rfl k
  | idle => exact ⟨σ, rfl, hσ, fun _ _ _ _ h => h, fun _ _ => rfl, fun h => (by cases h), fun h => (by cases h), fun h => (by cases h)⟩

/-- Events with which nothing goes wrong. -/
def Fine (w : List (Ev ι)) : Prop := ∀ e ∈ w, e.orders.Ok ∧ (∀ c, e.kind = .create c → Keepable c) ∧ ∀ m, e.kind = .change m → Good m

theorem duration_nonneg (w : List (Ev ι)) : 0 ≤ duration w := by
  unfold duration
  induction w with
  | nil => simp
  | cons e w ih => simp only [List.map_cons, List.sum_cons]; omega

theorem duration_cons (e : Ev ι) (w : List (Ev ι)) : duration (e :: w) = e.wait + duration w := by simp [duration]

theorem duration_append (w w' : List (Ev ι)) : duration (w ++ w') = duration w + duration w' := by simp [duration]

theorem Clock.before {t t' : Int} (h : Clock t') (h0 : 0 ≤ t) (ht : t ≤ t') : Clock t := ⟨h0, by have := h.2; omega⟩

theorem exec_append {X : DS.XEnv} : ∀ (w w' : List (Ev ι)) (s : Int × (ι → Node)), exec X W (w ++ w') s = (exec X W w s).bind fun s => exec X W w' s
  | [], w', s => rfl
  | e :: w, w', (t, σ) => by
    rw [List.cons_append, exec, exec]
    cases step X W (t + e.wait) e σ with
    | ok σ1 => simp only [Res.bind]; exact exec_append w w' _
    | err x => rfl
    | panic => rfl

/-- The steps go through, and nothing young is forgotten on the way. -/
theorem exec_ok {X : DS.XEnv} (hX : X.Ok) (hW : W.Ok addr port) : ∀ (w : List (Ev ι)) (t : Int) (σ : ι → Node), Fine w → 0 ≤ t → Clock (t + duration w) →
    (∀ k, Settled addr port t k (σ k)) →
    ∃ σ', exec X W w (t, σ) = .ok (t + duration w, σ') ∧ (∀ k, Settled addr port (t + duration w) k (σ' k)) ∧ Keeps addr (t + duration w) σ σ' ∧
      (∀ k, (∀ e ∈ w, ¬ (e.who = k ∧ e.kind = .sync)) → (σ' k).services = (σ k).services)
  | [], t, σ, _, _, _, hσ => ⟨σ, by simp [exec, duration], by simpa [duration] using hσ, fun _ _ _ _ h => h, fun _ _ => rfl⟩
  | e :: w, t, σ, hf, h0, hc, hσ => by
    have hd := duration_nonneg w
    rw [duration_cons] at hc ⊢
    rw [show t + (↑e.wait + duration w) = t + ↑e.wait + duration w by omega] at hc ⊢
    obtain ⟨σ1, a1, a2, a3, a4, -⟩ := step_ok hX hW (hc.before (t := t + e.wait) (by omega) (by omega)) (hf e (by simp)).1 (hf e (by simp)).2.1 (hf e (by simp)).2.2 σ
      fun k => (hσ k).later (by omega)
    obtain ⟨σ2, b1, b2, b3, b4⟩ := exec_ok hX hW w (t + e.wait) σ1 (fun e' he' => hf e' (by simp [he'])) (by omega) hc a2
    refine ⟨σ2, by rw [exec, a1]; exact b1, b2, ?_, ?_⟩
    · intro i j τ ht hk
      exact b3 i j τ ht (a3 i j τ (by omega) hk)
    · intro k hk
      rw [b4 k (fun e' he' => hk e' (by simp [he'])), a4 k (hk e (by simp))]

theorem Window.fine {acts : ι → Prop} {w : List (Ev ι)} (h : Window acts w) : Fine w := fun e he => ⟨h.orders e he, h.creates e he, h.changes e he⟩

/-- One event in the middle of a window. -/
theorem exec_mid {X : DS.XEnv} (hX : X.Ok) (hW : W.Ok addr port) {pre post : List (Ev ι)} {e : Ev ι} {t : Int} {σ : ι → Node}
    (hf : Fine (pre ++ e :: post)) (h0 : 0 ≤ t) (hc : Clock (t + duration (pre ++ e :: post))) (hσ : ∀ k, Settled addr port t k (σ k)) :
    ∃ σ1 σ2 σ', exec X W (pre ++ e :: post) (t, σ) = .ok (t + duration (pre ++ e :: post), σ') ∧
      t ≤ t + duration pre + e.wait ∧ t + duration pre + e.wait ≤ t + duration (pre ++ e :: post) ∧
      exec X W pre (t, σ) = .ok (t + duration pre, σ1) ∧ (∀ k, Settled addr port (t + duration pre + e.wait) k (σ1 k)) ∧
      step X W (t + duration pre + e.wait) e σ1 = .ok σ2 ∧
      Keeps addr (t + duration (pre ++ e :: post)) σ σ1 ∧ Keeps addr (t + duration (pre ++ e :: post)) σ2 σ' ∧
      (∀ k, (∀ e' ∈ pre, ¬ (e'.who = k ∧ e'.kind = .sync)) → (σ1 k).services = (σ k).services) := by
  have hd1 := duration_nonneg pre
  have hd2 := duration_nonneg post
  have hsum : t + duration (pre ++ e :: post) = t + duration pre + e.wait + duration post := by
    rw [duration_append, duration_cons]; omega
  rw [hsum] at hc ⊢
  obtain ⟨σ1, a1, a2, a3, a4⟩ := exec_ok hX hW pre t σ (fun e' he' => hf e' (by simp [he'])) h0 (hc.before (by omega) (by omega)) hσ
  have a2' : ∀ k, Settled addr port (t + duration pre + e.wait) k (σ1 k) := fun k => (a2 k).later (by omega)
  obtain ⟨σ2, b1, b2, b3, -⟩ := step_ok hX hW (hc.before (t := t + duration pre + e.wait) (by omega) (by omega)) (hf e (by simp)).1 (hf e (by simp)).2.1 (hf e (by simp)).2.2 σ1 a2'
  obtain ⟨σ3, c1, -, c3, -⟩ := exec_ok hX hW post _ σ2 (fun e' he' => hf e' (by simp [he'])) (by omega) hc b2
  refine ⟨σ1, σ2, σ3, ?_, by omega, by omega, a1, a2', b1, fun i j τ ht hk => a3 i j τ (by omega) hk, c3, a4⟩
  rw [exec_append, a1]
  simp only [Res.bind, exec]
  rw [b1]
  exact c1

/-- In a window each node that acts tells those it knows about itself, and about each other. -/
theorem window_ok {X : DS.XEnv} (hX : X.Ok) (hW : W.Ok addr port) {acts : ι → Prop} {w : List (Ev ι)} (hw : Window acts w) {t : Int} {σ : ι → Node}
    (h0 : 0 ≤ t) (hc : Clock (t + duration w)) (hσ : ∀ k, Settled addr port t k (σ k)) :
    ∃ σ', exec X W w (t, σ) = .ok (t + duration w, σ') ∧ (∀ k, Settled addr port (t + duration w) k (σ' k)) ∧ Keeps addr (t + duration w) σ σ' ∧
      (∀ i j τ, acts i → j ≠ i → (t + duration w) / 1000000000 < τ + 300 → Knows addr (σ i) j τ → Knows addr (σ' j) i (t / 1000000000)) ∧
      (∀ i j k τ τ', acts i → j ≠ i → j ≠ k → (t + duration w) / 1000000000 < τ + 300 → (t + duration w) / 1000000000 < τ' + 300 →
        Knows addr (σ i) j τ → Knows addr (σ i) k τ' → Knows addr (σ' j) k τ') ∧
      (Begins acts w → ∀ i j, acts i → j ≠ i → Link W σ i j → Knows addr (σ' j) i (t / 1000000000)) := by
  have hs := hw.short
  obtain ⟨σ', h1, h2, h3, -⟩ := exec_ok hX hW w t σ hw.fine h0 hc hσ
  refine ⟨σ', h1, h2, h3, ?_, ?_, ?_⟩
  · intro i j τ hi hji ht hk
    obtain ⟨e, he, rfl, hek⟩ := hw.joins i hi
    obtain ⟨pre, post, rfl⟩ := List.append_of_mem he
    obtain ⟨σ1, σ2, σ3, a1, a2, a3, a4, a5, a6, a7, a8, -⟩ := exec_mid hX hW hw.fine h0 hc hσ
    rw [h1] at a1
    simp only [Res.ok.injEq, Prod.mk.injEq, true_and] at a1
    subst a1
    obtain ⟨σ2', b1, -, -, -, b5, -⟩ := step_ok hX hW (hc.before (by omega) a3) (hw.fine e he).1 (hw.fine e he).2.1 (hw.fine e he).2.2 σ1 a5
    rw [a6] at b1
    injection b1 with b1
    subst b1
    exact (a8 _ _ _ (by omega) (b5 hek j τ hji (by omega) (a7 _ _ _ ht hk))).le (by omega)
  · intro i j k τ τ' hi hji hjk ht ht' hj hk
    obtain ⟨e, he, rfl, hek⟩ := hw.syncs i hi
    obtain ⟨pre, post, rfl⟩ := List.append_of_mem he
    obtain ⟨σ1, σ2, σ3, a1, a2, a3, a4, a5, a6, a7, a8, -⟩ := exec_mid hX hW hw.fine h0 hc hσ
    rw [h1] at a1
    simp only [Res.ok.injEq, Prod.mk.injEq, true_and] at a1
    subst a1
    obtain ⟨σ2', b1, -, -, -, -, -, b7⟩ := step_ok hX hW (hc.before (by omega) a3) (hw.fine e he).1 (hw.fine e he).2.1 (hw.fine e he).2.2 σ1 a5
    rw [a6] at b1
    injection b1 with b1
    subst b1
    exact a8 _ _ _ ht' (b7 hek j k τ τ' hji hjk (by omega) (by omega) (a7 _ _ _ ht hj) (a7 _ _ _ ht' hk))
  · intro hb i j hi hji hl
    obtain ⟨pre, e, post, rfl, rfl, hek, hno⟩ := hb i hi
    have he : e ∈ pre ++ e :: post := by simp
    obtain ⟨σ1, σ2, σ3, a1, a2, a3, a4, a5, a6, a7, a8, a9⟩ := exec_mid hX hW hw.fine h0 hc hσ
    rw [h1] at a1
    simp only [Res.ok.injEq, Prod.mk.injEq, true_and] at a1
    subst a1
    obtain ⟨σ2', b1, -, -, -, -, b6, -⟩ := step_ok hX hW (hc.before (by omega) a3) (hw.fine e he).1 (hw.fine e he).2.1 (hw.fine e he).2.2 σ1 a5
    rw [a6] at b1
    injection b1 with b1
    subst b1
    have hl' : Link W σ1 e.who j := by
      obtain ⟨s, g1, g2⟩ := hl
      exact ⟨s, by rw [a9 _ hno]; exact g1, g2⟩
    exact (a8 _ _ _ (by omega) (b6 hek j hji hl')).le (by omega)

/-! ### Rounds -/

/-- The two know each other, from the last window. -/
def Mutual (addr : ι → List String) (t : Int) (σ : ι → Node) (i j : ι) : Prop :=
  Knows addr (σ i) j (t / 1000000000 - 99) ∧ Knows addr (σ j) i (t / 1000000000 - 99)

theorem Mutual.symm {t : Int} {σ : ι → Node} {i j : ι} (h : Mutual addr t σ i j) : Mutual addr t σ j i := ⟨h.2, h.1⟩

theorem mutual_step {X : DS.XEnv} (hX : X.Ok) (hW : W.Ok addr port) {acts : ι → Prop} {w : List (Ev ι)} (hw : Window acts w) {t : Int} {σ σ' : ι → Node}
    (h0 : 0 ≤ t) (hc : Clock (t + duration w)) (hσ : ∀ k, Settled addr port t k (σ k)) (he : exec X W w (t, σ) = .ok (t + duration w, σ'))
    {i j : ι} (hi : acts i) (hj : acts j) (hij : i ≠ j) (h : Mutual addr t σ i j) : Mutual addr (t + duration w) σ' i j := by
  have hs := hw.short
  obtain ⟨σ1, h1, -, -, h4, -⟩ := window_ok hX hW hw h0 hc hσ
  rw [he] at h1
  simp only [Res.ok.injEq, Prod.mk.injEq, true_and] at h1
  subst h1
  exact ⟨(h4 j i _ hj hij (by omega) h.2).le (by omega), (h4 i j _ hi (Ne.symm hij) (by omega) h.1).le (by omega)⟩

/-- The windows one after the other. -/
theorem windows_ok {X : DS.XEnv} (hX : X.Ok) (hW : W.Ok addr port) {acts : ι → Prop} (ws : List (List (Ev ι))) (hws : ∀ w ∈ ws, Window acts w)
    {t : Int} {σ : ι → Node} (h0 : 0 ≤ t) (hc : Clock (t + duration ws.flatten)) (hσ : ∀ k, Settled addr port t k (σ k)) :
    ∃ σ', exec X W ws.flatten (t, σ) = .ok (t + duration ws.flatten, σ') ∧ (∀ k, Settled addr port (t + duration ws.flatten) k (σ' k)) := by
  obtain ⟨σ', h1, h2, -⟩ := exec_ok hX hW ws.flatten t σ (fun e he => by
    obtain ⟨w, hw, hew⟩ := List.mem_flatten.1 he
    exact (hws w hw).fine e hew) h0 hc hσ
  exact ⟨σ', h1, h2⟩

theorem mutual_windows {X : DS.XEnv} (hX : X.Ok) (hW : W.Ok addr port) {acts : ι → Prop} {i j : ι} (hi : acts i) (hj : acts j) (hij : i ≠ j) :
    ∀ (ws : List (List (Ev ι))) (_ : ∀ w ∈ ws, Window acts w) {t : Int} {σ σ' : ι → Node} (_ : 0 ≤ t) (_ : Clock (t + duration ws.flatten))
    (_ : ∀ k, Settled addr port t k (σ k)) (_ : exec X W ws.flatten (t, σ) = .ok (t + duration ws.flatten, σ')) (_ : Mutual addr t σ i j),
    Mutual addr (t + duration ws.flatten) σ' i j
  | [], _, t, σ, σ', _, _, _, he, h => by
    simp only [List.flatten_nil, exec, Res.ok.injEq, Prod.mk.injEq] at he
    rw [← he.2, List.flatten_nil, ← he.1]; exact h
  | w :: ws, hws, t, σ, σ', h0, hc, hσ, he, h => by
    rw [List.flatten_cons, duration_append] at *
    rw [show t + (duration w + duration ws.flatten) = t + duration w + duration ws.flatten by omega] at *
    have d1 := duration_nonneg w
    have d2 := duration_nonneg ws.flatten
    have hc1 : Clock (t + duration w) := hc.before (by omega) (by omega)
    obtain ⟨σ1, a1, a2, -⟩ := window_ok hX hW (hws w (by simp)) h0 hc1 hσ
    rw [exec_append, a1] at he
    exact mutual_windows hX hW hi hj hij ws (fun w' hw' => hws w' (by simp [hw'])) (by omega) hc a2 he
      (mutual_step hX hW (hws w (by simp)) h0 hc1 hσ a1 hi hj hij h)

/-- Two windows: the neighbours of a node come to know each other. -/
theorem mutual_two {X : DS.XEnv} (hX : X.Ok) (hW : W.Ok addr port) {acts : ι → Prop} {w w' : List (Ev ι)} (hw : Window acts w) (hw' : Window acts w')
    {t : Int} {σ σ' : ι → Node} (h0 : 0 ≤ t) (hc : Clock (t + duration w + duration w')) (hσ : ∀ k, Settled addr port t k (σ k))
    (he : exec X W (w ++ w') (t, σ) = .ok (t + duration w + duration w', σ'))
    {i j k : ι} (hi : acts i) (hj : acts j) (hk : acts k) (hji : j ≠ i) (hki : k ≠ i) (hjk : j ≠ k) (h1 : Mutual addr t σ i j) (h2 : Mutual addr t σ i k) :
    Mutual addr (t + duration w + duration w') σ' j k := by
  have hs := hw.short
  have hs' := hw'.short
  have d1 := duration_nonneg w
  have d2 := duration_nonneg w'
  obtain ⟨σ1, a1, a2, -, -, a5, -⟩ := window_ok hX hW hw h0 (hc.before (by omega) (by omega)) hσ
  obtain ⟨σ2, b1, -, -, b4, -⟩ := window_ok hX hW hw' (by omega) hc a2
  rw [exec_append, a1] at he
  simp only [Res.bind] at he
  rw [he] at b1
  simp only [Res.ok.injEq, Prod.mk.injEq, true_and] at b1
  subst b1
  have c1 := a5 i j k _ _ hi hji hjk (by omega) (by omega) h1.1 h2.1
  have c2 := a5 i k j _ _ hi hki (Ne.symm hjk) (by omega) (by omega) h2.1 h1.1
  exact ⟨(b4 k j _ hk hjk (by omega) c2).le (by omega), (b4 j k _ hj (Ne.symm hjk) (by omega) c1).le (by omega)⟩

/-- Three windows: two nodes of which one has the other in its configuration know each other. -/
theorem mutual_link {X : DS.XEnv} (hX : X.Ok) (hW : W.Ok addr port) {acts : ι → Prop} {w w' w'' : List (Ev ι)} (hw : Window acts w) (hw' : Window acts w')
    (hw'' : Window acts w'') (hb : Begins acts w)
    {t : Int} {σ σ' : ι → Node} (h0 : 0 ≤ t) (hc : Clock (t + duration w + duration w' + duration w'')) (hσ : ∀ k, Settled addr port t k (σ k))
    (he : exec X W (w ++ (w' ++ w'')) (t, σ) = .ok (t + duration w + duration w' + duration w'', σ'))
    {i j : ι} (hi : acts i) (hj : acts j) (hij : i ≠ j) (hl : Link W σ i j) :
    Mutual addr (t + duration w + duration w' + duration w'') σ' i j := by
  have hs := hw.short
  have hs' := hw'.short
  have hs'' := hw''.short
  have d1 := duration_nonneg w
  have d2 := duration_nonneg w'
  have d3 := duration_nonneg w''
  obtain ⟨σ1, a1, a2, -, -, -, a6⟩ := window_ok hX hW hw h0 (hc.before (by omega) (by omega)) hσ
  obtain ⟨σ2, b1, b2, b3, b4, -⟩ := window_ok hX hW hw' (by omega) (hc.before (by omega) (by omega)) a2
  obtain ⟨σ3, c1, -, -, c4, -⟩ := window_ok hX hW hw'' (by omega) hc b2
  rw [exec_append, a1] at he
  simp only [Res.bind] at he
  rw [exec_append, b1] at he
  simp only [Res.bind] at he
  rw [he] at c1
  simp only [Res.ok.injEq, Prod.mk.injEq, true_and] at c1
  subst c1
  have k1 := a6 hb i j hi (Ne.symm hij) hl
  have k2 := b4 j i _ hj hij (by omega) k1
  have k3 := b3 _ _ _ (by omega) k1
  exact ⟨(c4 j i _ hj hij (by omega) k3).le (by omega), (c4 i j _ hi (Ne.symm hij) (by omega) k2).le (by omega)⟩

theorem Chain.ends {acts : ι → Prop} {link : ι → ι → Prop} {n : Nat} {i j : ι} (h : Chain acts link n i j) : acts i ∧ acts j := by
  induction h with
  | refl i h => exact ⟨h, h⟩
  | step _ hj _ ih => exact ⟨ih.1, hj⟩

theorem Chain.split {acts : ι → Prop} {link : ι → ι → Prop} : ∀ (b : Nat) {a : Nat} {i j : ι}, Chain acts link (a + b) i j →
    ∃ k, Chain acts link a i k ∧ Chain acts link b k j
  | 0, a, i, j, h => ⟨j, h, .refl j h.ends.2⟩
  | b + 1, a, i, j, h => by
    cases h with
    | step h1 h2 h3 =>
      obtain ⟨k, g1, g2⟩ := Chain.split b h1
      exact ⟨k, g1, .step g2 h2 h3⟩

/-- After `3 + 2 * m` windows those that are at most `2 ^ m` links apart know each other. -/
theorem mutual_chain {X : DS.XEnv} (hX : X.Ok) (hW : W.Ok addr port) {acts : ι → Prop} {t : Int} {σ : ι → Node} (h0 : 0 ≤ t)
    (hσ : ∀ k, Settled addr port t k (σ k)) : ∀ (m : Nat) (ws : List (List (Ev ι))) (_ : ∀ w ∈ ws, Window acts w) (_ : ∀ w ∈ ws.head?, Begins acts w)
    (_ : Clock (t + duration ws.flatten)) (_ : 3 + 2 * m ≤ ws.length) {σ' : ι → Node} (_ : exec X W ws.flatten (t, σ) = .ok (t + duration ws.flatten, σ'))
    (n : Nat) (i j : ι) (_ : Chain acts (Link W σ) n i j) (_ : n ≤ 2 ^ m) (_ : i ≠ j), Mutual addr (t + duration ws.flatten) σ' i j
  | 0, ws, hws, hb, hc, hlen, σ', he, n, i, j, hch, hn, hij => by
    match ws, hlen with
    | w :: w' :: w'' :: ws, _ =>
      have hw := hws w (by simp)
      have hw' := hws w' (by simp)
      have hw'' := hws w'' (by simp)
      have d1 := duration_nonneg w
      have d2 := duration_nonneg w'
      have d3 := duration_nonneg w''
      have d4 := duration_nonneg ws.flatten
      have e1 : (w :: w' :: w'' :: ws).flatten = (w ++ (w' ++ w'')) ++ ws.flatten := by simp
      have e2 : t + duration (w :: w' :: w'' :: ws).flatten = t + duration w + duration w' + duration w'' + duration ws.flatten := by
        rw [e1]; simp only [duration_append]; omega
      rw [e2] at hc he ⊢
      rw [e1] at he
      have hc1 : Clock (t + duration w + duration w' + duration w'') := hc.before (by omega) (by omega)
      obtain ⟨σ1, a1, a2, -⟩ := exec_ok hX hW (w ++ (w' ++ w'')) t σ (by
        intro e he
        simp only [List.mem_append] at he
        rcases he with he | he | he
        · exact hw.fine e he
        · exact hw'.fine e he
        · exact hw''.fine e he) h0 (by rw [duration_append, duration_append]; rw [show t + (duration w + (duration w' + duration w'')) = t + duration w + duration w' + duration w'' by omega]; exact hc1) hσ
      rw [duration_append, duration_append, show t + (duration w + (duration w' + duration w'')) = t + duration w + duration w' + duration w'' by omega] at a1 a2
      rw [exec_append, a1] at he
      simp only [Res.bind] at he
      have hends := hch.ends
      refine mutual_windows hX hW hends.1 hends.2 hij ws (fun w hw => hws w (by simp [hw])) (by omega) hc a2 he ?_
      have hb' := hb w (by simp)
      cases hch with
      | refl i h => exact absurd rfl hij
      | step h1 h2 h3 =>
        rename_i n k
        have : n = 0 := by simp at hn; omega
        subst this
        cases h1 with
        | refl _ h =>
          rcases h3 with h3 | h3
          · exact mutual_link hX hW hw hw' hw'' hb' h0 hc1 hσ a1 h h2 hij h3
          · exact (mutual_link hX hW hw hw' hw'' hb' h0 hc1 hσ a1 h2 h (Ne.symm hij) h3).symm
  | m + 1, ws, hws, hb, hc, hlen, σ', he, n, i, j, hch, hn, hij => by
    -- all but the last two windows
    obtain ⟨ws0, w, w', rfl⟩ : ∃ ws0 w w', ws = ws0 ++ [w, w'] := by
      refine ⟨ws.take (ws.length - 2), ws[ws.length - 2], ws[ws.length - 1], ?_⟩
      apply List.ext_getElem
      · simp; omega
      · intro k h1 h2
        simp only [List.getElem_append, List.length_take, List.getElem_take]
        split
        · rfl
        · rename_i hk
          have : k = ws.length - 2 ∨ k = ws.length - 1 := by omega
          have hm : min (ws.length - 2) ws.length = ws.length - 2 := by omega
          rcases this with rfl | rfl
          · simp
          · simp only [hm, show ws.length - 1 - (ws.length - 2) = 1 by omega, List.getElem_cons_succ, List.getElem_cons_zero]
    have hw := hws w (by simp)
    have hw' := hws w' (by simp)
    have d1 := duration_nonneg w
    have d2 := duration_nonneg w'
    have d3 := duration_nonneg ws0.flatten
    have e1 : (ws0 ++ [w, w']).flatten = ws0.flatten ++ (w ++ w') := by simp
    have e2 : t + duration (ws0 ++ [w, w']).flatten = t + duration ws0.flatten + duration w + duration w' := by
      rw [e1]; simp only [duration_append]; omega
    rw [e2] at hc he ⊢
    rw [e1] at he
    have hlen0 : 3 + 2 * m ≤ ws0.length := by simp at hlen; omega
    have hws0 : ∀ w ∈ ws0, Window acts w := fun w hw => hws w (by simp [hw])
    have hb0 : ∀ w ∈ ws0.head?, Begins acts w := by
      intro w1 hw1
      refine hb w1 ?_
      cases ws0 with
      | nil => simp at hw1
      | cons a l => simpa using hw1
    have hc0 : Clock (t + duration ws0.flatten) := hc.before (by omega) (by omega)
    obtain ⟨σ1, a1, a2⟩ := windows_ok hX hW ws0 hws0 h0 hc0 hσ
    have ih := mutual_chain hX hW h0 hσ m ws0 hws0 hb0 hc0 hlen0 a1
    rw [exec_append, a1] at he
    simp only [Res.bind] at he
    have hstep : ∀ {i j : ι}, acts i → acts j → i ≠ j → Mutual addr (t + duration ws0.flatten) σ1 i j →
        Mutual addr (t + duration ws0.flatten + duration w + duration w') σ' i j := by
      intro i j hi hj hij h
      have := mutual_windows hX hW hi hj hij [w, w'] (fun x hx => by
        simp only [List.mem_cons, List.not_mem_nil, or_false] at hx
        rcases hx with rfl | rfl
        · exact hw
        · exact hw') (t := t + duration ws0.flatten) (σ := σ1) (σ' := σ') (by omega)
      simp only [List.flatten_cons, List.flatten_nil, List.append_nil, duration_append] at this
      rw [show t + duration ws0.flatten + (duration w + duration w') = t + duration ws0.flatten + duration w + duration w' by omega] at this
      exact this hc a2 he h
    by_cases hle : n ≤ 2 ^ m
    · exact hstep hch.ends.1 hch.ends.2 hij (ih n i j hch hle hij)
    · have hp : 2 ^ (m + 1) = 2 ^ m + 2 ^ m := by rw [Nat.pow_succ]; omega
      obtain ⟨k, g1, g2⟩ := Chain.split (n - 2 ^ m) (a := 2 ^ m) (by rw [show 2 ^ m + (n - 2 ^ m) = n by omega]; exact hch)
      by_cases hik : i = k
      · subst hik
        exact hstep g2.ends.1 g2.ends.2 hij (ih _ _ _ g2 (by omega) hij)
      · by_cases hjk : j = k
        · subst hjk
          exact hstep g1.ends.1 g1.ends.2 hij (ih _ _ _ g1 (Nat.le_refl _) hij)
        · exact mutual_two hX hW hw hw' (by omega) hc a2 he g1.ends.2 g1.ends.1 g2.ends.2 hik hjk hij
            (ih _ _ _ g1 (Nat.le_refl _) hik).symm (ih _ _ _ g2 (by omega) (Ne.symm hjk))

end
end Gossip

open Gossip Net

/-- C155.  Nodes that do their periodic work at least every 99 seconds, in whatever order, and answer at their addresses: after
`3 + 2 * m` such windows any two of them that are connected by at most `2 ^ m` entries of their configurations (in whichever direction)
have live records of each other, at most 99 seconds old.  Other nodes may exist, be in the tables, and not act; whatever
happens to the data sets on the way.  Nothing panics. -/
theorem C155_everyone {ι : Type} [DecidableEq ι] {X : DS.XEnv} (hX : X.Ok) (W : World ι) (addr : ι → List String) (port : ι → UInt32)
    (hW : W.Ok addr port) (acts : ι → Prop) (t : Int) (σ : ι → Node) (h0 : 0 ≤ t) (hσ : ∀ k, Settled addr port t k (σ k))
    (ws : List (List (Ev ι))) (hws : ∀ w ∈ ws, Window acts w) (hb : ∀ w ∈ ws.head?, Begins acts w) (hc : Clock (t + duration ws.flatten)) :
    ∃ σ', exec X W ws.flatten (t, σ) = .ok (t + duration ws.flatten, σ') ∧
      ∀ (m n : Nat) (i j : ι), Chain acts (Link W σ) n i j → n ≤ 2 ^ m → 3 + 2 * m ≤ ws.length → i ≠ j →
        KnownTo (t + duration ws.flatten) (σ' i) (addr j) := by
  obtain ⟨σ', h1, h2⟩ := windows_ok hX hW ws hws h0 hc hσ
  refine ⟨σ', h1, ?_⟩
  intro m n i j hch hn hm hij
  have hk := (mutual_chain hX hW h0 hσ m ws hws hb hc hm h1 n i j hch hn hij).1
  obtain ⟨s, g1, g2, g3⟩ := (h2 i).alive hk (by omega)
  exact ⟨s.peer, (mem_peerItems (h2 i).nodup).2 ⟨_, s, g1, g3, rfl⟩, ((h2 i).recAt hW g1).list, by omega⟩

namespace Gossip
/-! A cluster of three: the first and the third have the second in their configurations. -/

def exAddr (i : Fin 3) : List String := [#["a:1", "b:1", "c:1"][i]]

def exWorld : World (Fin 3) where
  dial := fun s => if s = "a:1" then some 0 else if s = "b:1" then some 1 else if s = "c:1" then some 2 else none
  seen := fun _ _ => ""

def exNode (i : Fin 3) : Node := newNode 1 (exAddr i) (if i = 1 then [] else ["b:1"]) []

def exOrders : Orders := ⟨id, List.reverse, fun _ => id⟩

def exWindow : List (Ev (Fin 3)) :=
  ([0, 1, 2].map fun i => ⟨30000000000, i, .join, exOrders⟩) ++ ([2, 1, 0].map fun i => ⟨0, i, .sync, exOrders⟩)

theorem exWorld_ok : exWorld.Ok exAddr (fun _ => 1) where
  nonempty := by decide
  ok := by unfold AddressOk NoComma; decide +kernel
  dial := by decide +kernel
  seen := fun _ _ => .inl rfl

theorem exNode_settled (i : Fin 3) : Settled exAddr (fun _ => 1) 0 i (exNode i) where
  own := by revert i; decide +kernel
  port := rfl
  data := good_nil
  nodup := List.nodup_nil
  recs := by intro id s h; cases h

theorem exWindow_ok : Window (fun _ => True) exWindow where
  short := by decide
  joins := fun i _ => by
    refine ⟨⟨30000000000, i, .join, exOrders⟩, ?_, rfl, rfl⟩
    revert i; simp only [exWindow, List.mem_append]; intro i; left
    exact List.mem_map.2 ⟨i, by revert i; decide, rfl⟩
  syncs := fun i _ => by
    refine ⟨⟨0, i, .sync, exOrders⟩, ?_, rfl, rfl⟩
    simp only [exWindow, List.mem_append]; right
    exact List.mem_map.2 ⟨i, by revert i; decide, rfl⟩
  orders := by
    have h : exOrders.Ok := ⟨fun l => .refl l, fun l => l.reverse_perm, fun _ l => .refl l⟩
    intro e he
    simp only [exWindow, List.mem_append, List.mem_map] at he
    rcases he with ⟨i, -, rfl⟩ | ⟨i, -, rfl⟩ <;> exact h
  creates := by
    intro e he c hc
    simp only [exWindow, List.mem_append, List.mem_map] at he
    rcases he with ⟨i, -, rfl⟩ | ⟨i, -, rfl⟩ <;> cases hc
  changes := by
    intro e he m hm
    simp only [exWindow, List.mem_append, List.mem_map] at he
    rcases he with ⟨i, -, rfl⟩ | ⟨i, -, rfl⟩ <;> cases hm

theorem exWindow_begins : Begins (fun _ => True) exWindow := by
  intro i _
  match i with
  | 0 => exact ⟨[], _, _, rfl, rfl, rfl, by simp⟩
  | 1 => exact ⟨[_], _, _, rfl, rfl, rfl, by simp⟩
  | 2 => exact ⟨[_, _], _, _, rfl, rfl, rfl, by simp⟩

theorem exChain : Chain (fun _ => True) (Link exWorld exNode) 2 0 2 :=
  .step (.step (.refl 0 trivial) (j := 1) trivial (.inl ⟨"b:1", by decide, by decide⟩)) trivial (.inr ⟨"b:1", by decide, by decide⟩)

end Gossip

/-- Five times 90 seconds are enough for the first and the third, which have nothing of each other in their configurations. -/
theorem C155_example : ∃ σ', exec (DS.toy 0) exWorld (List.replicate 5 exWindow).flatten (0, exNode) = .ok (450000000000, σ') ∧
    KnownTo 450000000000 (σ' 0) ["c:1"] ∧ KnownTo 450000000000 (σ' 2) ["a:1"] := by
  have hd : (0 : Int) + duration (List.replicate 5 exWindow).flatten = 450000000000 := by decide
  obtain ⟨σ', h1, h2⟩ := C155_everyone (DS.toy_ok 0) exWorld exAddr (fun _ => 1) exWorld_ok (fun _ => True) 0 exNode (by decide) exNode_settled
    (List.replicate 5 exWindow) (fun w hw => by rw [List.eq_of_mem_replicate hw]; exact exWindow_ok)
    (fun w hw => by simp only [List.replicate, List.head?_cons, Option.mem_def, Option.some.injEq] at hw; rw [← hw]; exact exWindow_begins)
    (by rw [hd]; unfold Clock; decide)
  rw [hd] at h1 h2
  refine ⟨σ', h1, h2 1 2 0 2 exChain (by decide) (by decide) (by decide), ?_⟩
  exact h2 1 2 2 0 (.step (.step (.refl 2 trivial) (j := 1) trivial (.inl ⟨"b:1", by decide, by decide⟩)) trivial (.inr ⟨"b:1", by decide, by decide⟩))
    (by decide) (by decide) (by decide)

end Veri
