import Verif.Pool.Claims
/-
C179, C180: connections that nobody can use or close any more, and the number of entries of a pool.
-/
set_option autoImplicit false
namespace Veri
open Pool

namespace Pool

/-- The goroutine is closing the pool (util/connpool.go:185-203 `CloseAll`), or about to. -/
def Closes (p : Nat) : T → Bool
  | .evicting p' => p = p'
  | .closing p' _ => p = p'
  | _ => false

/-- A goroutine has hold of the connection, or it is in the pool of the address, or in one that is being closed. -/
def Kept (s : PState) (c : Nat) : Prop :=
  (∃ t ∈ s.threads, ref t = some c) ∨
  ∃ p q, s.pools[p]? = some q ∧ c ∈ q.content ∧ (s.current = some p ∨ ∃ t ∈ s.threads, Closes p t = true)

/-- A goroutine has chosen the pool in which to put its connection (util/connpool.go:55-58). -/
def Returns : T → Bool
  | .putting _ _ => true
  | .returning _ _ => true
  | _ => false

/-- The program has luck: `sync.Pool` keeps its items, the cache of pools tells of each pool that it drops, and drops none while a connection
is given back, and `CloseAll` finds all items. -/
def Lucky (s : PState) : Label → Prop
  | .drop _ _ => False
  | .evict notify => notify = true ∧ ∀ t ∈ s.threads, Returns t = false
  | .go j => ∀ p, s.threads[j]? = some (.closing p 0) → ∀ q, s.pools[p]? = some q → q.content = []
  | _ => True

/-- States reached with luck. -/
inductive LReach : PState → Prop
  | init : LReach init
  | step {s s' : PState} (l : Label) : LReach s → Lucky s l → step s l = some s' → LReach s'

theorem LReach.reach {s : PState} (h : LReach s) : Reach s := by
  induction h with
  | init => exact .init
  | step l _ _ h ih => exact .step l ih h

end Pool

/-- C179, full statement: a connection that is not closed is in use, or can be used again, or is going to be closed.  FALSE of the code. -/
def C179_statement : Prop :=
  ∀ s, Reach s → ∀ c x, s.conns[c]? = some x → x.state ≠ .shutdown → Kept s c

namespace Pool

structure KInv (s : PState) : Prop where
  kept : ∀ c x, s.conns[c]? = some x → x.state ≠ .shutdown → Kept s c
  back : ∀ p c, T.putting p c ∈ s.threads ∨ T.returning p c ∈ s.threads → s.current = some p

theorem mem_set_of {α : Type} {l : List α} {j : Nat} {a b x : α} (hj : l[j]? = some a) (hx : x ∈ l) (hne : x ≠ a) : x ∈ l.set j b := by
  obtain ⟨i, hi⟩ := List.mem_iff_getElem?.mp hx
  have : i ≠ j := by rintro rfl; rw [hj] at hi; cases hi; exact hne rfl
  exact List.mem_iff_getElem?.mpr ⟨i, by rw [List.getElem?_set_ne (Ne.symm this)]; exact hi⟩

theorem mem_set_new {α : Type} {l : List α} {j : Nat} {a b : α} (hj : l[j]? = some a) : b ∈ l.set j b :=
  List.mem_iff_getElem?.mpr ⟨j, getElem?_set_self' hj⟩

theorem kept_set {s s' : PState} {j c : Nat} {t t' : T} (hj : s.threads[j]? = some t) (h : Kept s c) (hthr : s'.threads = s.threads.set j t')
    (hr : ref t = some c → Kept s' c)
    (ht : ∀ (p : Nat), Closes p t = true → Closes p t' = true ∨ ∀ (q : CPool), s.pools[p]? = some q → c ∉ q.content)
    (hp : ∀ (p : Nat) (q : CPool), s.pools[p]? = some q → c ∈ q.content → (∃ q' : CPool, s'.pools[p]? = some q' ∧ c ∈ q'.content) ∨ Kept s' c)
    (hc : ∀ p, s.current = some p → s'.current = some p) : Kept s' c := by
  rcases h with ⟨t0, h1, h2⟩ | ⟨p, q, h1, h2, h3⟩
  · by_cases e : t0 = t
    · subst e; exact hr h2
    · exact .inl ⟨t0, hthr ▸ mem_set_of hj h1 e, h2⟩
  · rcases hp p q h1 h2 with ⟨q', h4, h5⟩ | h4
    · refine .inr ⟨p, q', h4, h5, ?_⟩
      rcases h3 with h3 | ⟨t0, h6, h7⟩
      · exact .inl (hc p h3)
      · by_cases e : t0 = t
        · subst e
          rcases ht p h7 with h8 | h8
          · exact .inr ⟨t', hthr ▸ mem_set_new hj, h8⟩
          · exact absurd h2 (h8 q h1)
        · exact .inr ⟨t0, hthr ▸ mem_set_of hj h6 e, h7⟩
    · exact h4

theorem back_set {s s' : PState} {j : Nat} {t' : T} (hi : KInv s) (hthr : s'.threads = s.threads.set j t')
    (hr : ∀ p c, t' = .putting p c ∨ t' = .returning p c → s'.current = some p)
    (hc : ∀ p, s.current = some p → s'.current = some p) :
    ∀ p c, T.putting p c ∈ s'.threads ∨ T.returning p c ∈ s'.threads → s'.current = some p := by
  intro p c h
  rw [hthr] at h
  rcases h with h | h <;> rcases mem_set_cases h with e | h
  · exact hr p c (.inl e.symm)
  · exact hc p (hi.back p c (.inl h))
  · exact hr p c (.inr e.symm)
  · exact hc p (hi.back p c (.inr h))

theorem mem_eraseIdx_of {l : List Nat} {i c a : Nat} (h : c ∈ l) (hi : l[i]? = some a) (hne : c ≠ a) : c ∈ l.eraseIdx i := by
  have h1 := count_eraseIdx l i c a hi
  rw [if_neg hne] at h1
  have h2 := List.count_pos_iff.mpr h
  exact List.count_pos_iff.mp (by omega)

theorem shut_open {conns : List Conn} {c c' : Nat} {x : Conn} (h : (shut conns c')[c]? = some x) (ho : x.state ≠ .shutdown) :
    c ≠ c' ∧ conns[c]? = some x := by
  unfold shut at h
  split at h
  · rename_i y hy
    rw [List.getElem?_set] at h
    split at h
    · split at h
      · cases h; simp at ho
      · cases h
    · rename_i hne; exact ⟨fun e => hne e.symm, h⟩
  · rename_i hy
    refine ⟨?_, h⟩
    rintro rfl
    rw [h] at hy; cases hy

theorem pools_set {s : PState} {p : Nat} {q q' : CPool} (hq : s.pools[p]? = some q) {p0 : Nat} {q0 : CPool} (h : s.pools[p0]? = some q0) {c : Nat}
    (hc : c ∈ q0.content) (hsub : c ∈ q.content → c ∈ q'.content) : ∃ q1, (s.pools.set p q')[p0]? = some q1 ∧ c ∈ q1.content := by
  by_cases e : p = p0
  · subst e
    rw [hq] at h; cases h
    exact ⟨q', getElem?_set_self' hq, hsub hc⟩
  · exact ⟨q0, by rw [List.getElem?_set_ne e]; exact h, hc⟩

theorem provider_kept {s s1 : PState} {p : Nat} (h : provider s = (s1, p)) : s1.threads = s.threads ∧ s1.conns = s.conns ∧ s1.current = some p ∧
    (∀ p', s.current = some p' → s1.current = some p') ∧ (∀ (p' : Nat) (q : CPool), s.pools[p']? = some q → s1.pools[p']? = some q) := by
  unfold provider at h
  split at h
  · rename_i p' hp
    cases h
    exact ⟨rfl, rfl, hp, fun _ h => h, fun _ _ h => h⟩
  · rename_i hn
    cases h
    refine ⟨rfl, rfl, rfl, ?_, ?_⟩
    · intro p' h; rw [hn] at h; cases h
    · intro p' q h
      simp only
      rw [List.getElem?_append_left (List.getElem?_eq_some_iff.mp h).1]; exact h

theorem setCounter_kept {s s1 : PState} {c : Nat} {f : Int → Int} (h : setCounter s c f = some s1) : s1.threads = s.threads ∧ s1.current = s.current ∧
    s1.pools = s.pools ∧ ∀ (c' : Nat) (x : Conn), s1.conns[c']? = some x → ∃ y : Conn, s.conns[c']? = some y ∧ y.state = x.state := by
  unfold setCounter at h
  split at h
  · rename_i y hy
    cases h
    refine ⟨rfl, rfl, rfl, ?_⟩
    intro c' x hx
    simp only [List.getElem?_set] at hx
    split at hx
    · rename_i e
      subst e
      split at hx
      · cases hx; exact ⟨y, hy, rfl⟩
      · cases hx
    · exact ⟨x, hx, rfl⟩
  · cases h

theorem kinv_step {s s' : PState} {l : Label} (hi : KInv s) (hl : Lucky s l) (h : step s l = some s') : KInv s' := by
  cases l with
  | arrive =>
    simp only [step, Option.some.injEq] at h
    subst h
    refine ⟨?_, ?_⟩
    · intro c x hx ho
      rcases hi.kept c x hx ho with ⟨t, h1, h2⟩ | ⟨p, q, h1, h2, h3⟩
      · exact .inl ⟨t, by simp [h1], h2⟩
      · exact .inr ⟨p, q, h1, h2, h3.imp id fun ⟨t, h4, h5⟩ => ⟨t, by simp [h4], h5⟩⟩
    · intro p c h
      exact hi.back p c (by simpa using h)
  | drop p i => exact hl.elim
  | evict notify =>
    obtain ⟨rfl, hl⟩ := hl
    simp only [step] at h
    split at h
    · rename_i p hp
      cases h
      refine ⟨?_, ?_⟩
      · intro c x hx ho
        rcases hi.kept c x hx ho with ⟨t, h1, h2⟩ | ⟨p', q, h1, h2, h3⟩
        · exact .inl ⟨t, by simp [h1], h2⟩
        · refine .inr ⟨p', q, h1, h2, .inr ?_⟩
          rcases h3 with h3 | ⟨t, h4, h5⟩
          · rw [hp] at h3; cases h3
            exact ⟨.evicting p, by simp, by simp [Closes]⟩
          · exact ⟨t, by simp [h4], h5⟩
      · intro p' c h
        simp only [if_true, List.mem_append, List.mem_singleton, reduceCtorEq, or_false] at h
        rcases h with h | h <;> cases hl _ h
    · cases h
  | net c st =>
    simp only [step] at h
    split at h
    · rename_i x hx
      split at h
      · cases h
      · rename_i hne
        cases h
        refine ⟨?_, hi.back⟩
        intro c' y hy ho
        simp only [List.getElem?_set] at hy
        split at hy
        · rename_i e
          subst e
          exact hi.kept c x hx (fun e => hne (.inl e))
        · exact hi.kept c' y hy ho
    · cases h
  | «try» j k =>
    simp only [step] at h
    split at h
    · rename_i p count hj
      split at h
      · cases h
      · split at h
        · cases h
        · rename_i q hq
          split at h
          · cases h
          · rename_i conns1 q1 c1 ha
            cases h
            obtain ⟨r0, cs, hf, h2⟩ := attempt_spec ha
            obtain ⟨-, hf⟩ := fetch_spec hf
            have hcs : conns1 = cs ∧ r0 = some c1 := by
              rcases h2 with ⟨-, e, -⟩ | ⟨c, x, e1, e2, e3, -⟩ | ⟨c, x, -, e, -⟩
              · cases e
              · cases e2; exact ⟨e3, e1⟩
              · cases e
            obtain ⟨rfl, rfl⟩ := hcs
            have hnew : Kept (setT j (.got p c1) { s with conns := conns1, pools := s.pools.set p q1 }) c1 :=
              .inl ⟨.got p c1, mem_set_new hj, rfl⟩
            refine ⟨?_, back_set (j := j) (t' := .got p c1) hi rfl (by simp) (fun _ h => h)⟩
            intro c x hx ho
            by_cases hcc : c = c1
            · subst hcc; exact hnew
            · have hold : s.conns[c]? = some x := by
                simp only [setT] at hx
                rcases hf with ⟨i, c2, -, -, rfl, -⟩ | ⟨rfl, -⟩ | ⟨-, rfl, -, e⟩
                · exact hx
                · exact hx
                · cases e
                  by_cases hlt : c < s.conns.length
                  · rw [List.getElem?_append_left hlt] at hx; exact hx
                  · have : s.conns.length < c := by omega
                    rw [List.getElem?_eq_none (by simp; omega)] at hx; cases hx
              refine kept_set hj (hi.kept c x hold ho) (s' := setT j (.got p c1) { s with conns := conns1, pools := s.pools.set p q1 }) rfl (by simp [ref]) (by simp [Closes]) ?_ (fun _ h => h)
              intro p0 q0 h0 hc0
              refine .inl (pools_set hq h0 hc0 ?_)
              intro hin
              rcases hf with ⟨i, c2, -, e1, -, e2, e3⟩ | ⟨-, rfl, -⟩ | ⟨-, -, rfl, -⟩
              · cases e3
                rw [e2]; exact mem_eraseIdx_of hin e1 hcc
              · exact hin
              · exact hin
          · rename_i conns1 q1 ha
            cases h
            obtain ⟨r0, cs, hf, h2⟩ := attempt_spec ha
            obtain ⟨-, hf⟩ := fetch_spec hf
            refine ⟨?_, back_set (j := j) (t' := .trying p (count + 1)) hi rfl (by simp) (fun _ h => h)⟩
            intro c x hx ho
            simp only [setT] at hx
            rcases h2 with ⟨rfl, -, rfl⟩ | ⟨c1, y, -, e, -⟩ | ⟨c1, y, rfl, -, rfl, hy, hys⟩
            · rcases hf with ⟨i, c2, -, -, -, -, e⟩ | ⟨rfl, rfl, -⟩ | ⟨-, -, -, e⟩
              · cases e
              · refine kept_set hj (hi.kept c x hx ho) (s' := setT j (.trying p (count + 1)) { s with conns := s.conns, pools := s.pools.set p q1 }) rfl (by simp [ref]) (by simp [Closes]) ?_ (fun _ h => h)
                exact fun p0 q0 h0 hc0 => .inl (pools_set hq h0 hc0 id)
              · cases e
            · cases e
            · obtain ⟨hcc, hx1⟩ := shut_open hx ho
              replace hx := hx1
              clear hx1
              have hold : s.conns[c]? = some x := by
                rcases hf with ⟨i, c2, -, -, rfl, -⟩ | ⟨rfl, -⟩ | ⟨-, rfl, -, e⟩
                · exact hx
                · exact hx
                · cases e
                  rw [List.getElem?_append_right (Nat.le_refl _)] at hy
                  simp at hy; subst hy; cases hys
              refine kept_set hj (hi.kept c x hold ho) (s' := setT j (.trying p (count + 1)) { s with conns := shut cs c1, pools := s.pools.set p q1 }) rfl (by simp [ref]) (by simp [Closes]) ?_ (fun _ h => h)
              intro p0 q0 h0 hc0
              refine .inl (pools_set hq h0 hc0 ?_)
              intro hin
              rcases hf with ⟨i, c2, -, e1, -, e2, e3⟩ | ⟨-, rfl, -⟩ | ⟨-, -, rfl, -⟩
              · cases e3
                rw [e2]; exact mem_eraseIdx_of hin e1 hcc
              · exact hin
              · exact hin
    · cases h
  | close j k =>
    simp only [step] at h
    split at h
    · rename_i p left hj
      split at h
      · cases h
      · rename_i q hq
        split at h
        · cases h
        · rename_i conns1 q1 c1 hf
          cases h
          obtain ⟨-, hf⟩ := fetch_spec hf
          refine ⟨?_, back_set (j := j) (t' := .closing p left) hi rfl (by simp) (fun _ h => h)⟩
          intro c x hx ho
          simp only [setT] at hx
          obtain ⟨hcc, hx1⟩ := shut_open hx ho
          replace hx := hx1
          clear hx1
          have hold : s.conns[c]? = some x := by
            rcases hf with ⟨i, c2, -, -, rfl, -⟩ | ⟨rfl, -⟩ | ⟨-, rfl, -, e⟩
            · exact hx
            · exact hx
            · cases e
              by_cases hlt : c < s.conns.length
              · rw [List.getElem?_append_left hlt] at hx; exact hx
              · rw [List.getElem?_eq_none (by simp; omega)] at hx; cases hx
          refine kept_set hj (hi.kept c x hold ho) (s' := setT j (.closing p left) { s with conns := shut conns1 c1, pools := s.pools.set p q1 }) rfl (by simp [ref]) (fun p' h => .inl (by simpa [Closes] using h)) ?_ (fun _ h => h)
          intro p0 q0 h0 hc0
          refine .inl (pools_set hq h0 hc0 ?_)
          intro hin
          rcases hf with ⟨i, c2, -, e1, -, e2, e3⟩ | ⟨-, rfl, -⟩ | ⟨-, -, rfl, -⟩
          · cases e3
            rw [e2]; exact mem_eraseIdx_of hin e1 hcc
          · exact hin
          · exact hin
        · rename_i conns1 q1 hf
          cases h
          obtain ⟨-, hf⟩ := fetch_spec hf
          refine ⟨?_, back_set (j := j) (t' := .closing p left) hi rfl (by simp) (fun _ h => h)⟩
          intro c x hx ho
          simp only [setT] at hx
          rcases hf with ⟨i, c2, -, -, -, -, e⟩ | ⟨rfl, rfl, -⟩ | ⟨-, -, -, e⟩
          · cases e
          · refine kept_set hj (hi.kept c x hx ho) (s' := setT j (.closing p left) { s with conns := s.conns, pools := s.pools.set p q1 }) rfl (by simp [ref]) (fun p' h => .inl (by simpa [Closes] using h)) ?_ (fun _ h => h)
            exact fun p0 q0 h0 hc0 => .inl (pools_set hq h0 hc0 id)
          · cases e
    · cases h
  | go j =>
    simp only [step] at h
    split at h
    · rename_i hj
      generalize hp : provider s = sp at h
      obtain ⟨s1, p⟩ := sp
      cases h
      obtain ⟨e1, e2, e3, e4, e5⟩ := provider_kept hp
      refine ⟨?_, back_set (j := j) (t' := .trying p 0) hi (by simp [setT, e1]) (by simp) e4⟩
      intro c x hx ho
      simp only [setT, e2] at hx
      exact kept_set hj (hi.kept c x hx ho) (t' := .trying p 0) (by simp [setT, e1]) (by simp [ref]) (by simp [Closes])
        (fun p0 q0 h0 hc0 => .inl ⟨q0, e5 p0 q0 h0, hc0⟩) e4
    · rename_i p count hj
      split at h
      · cases h
        refine ⟨?_, back_set (j := j) (t' := .done) hi rfl (by simp) (fun _ h => h)⟩
        intro c x hx ho
        exact kept_set hj (hi.kept c x hx ho) (t' := .done) rfl (by simp [ref]) (by simp [Closes]) (fun p0 q0 h0 hc0 => .inl ⟨q0, h0, hc0⟩) (fun _ h => h)
      · cases h
    · rename_i p c1 hj
      obtain ⟨s1, h1, rfl⟩ := Option.map_eq_some_iff.mp h
      obtain ⟨e1, e2, e3, e4⟩ := setCounter_kept h1
      refine ⟨?_, back_set (j := j) (t' := .counted p c1) hi (by simp [setT, e1]) (by simp) (by simp [setT, e2])⟩
      intro c x hx ho
      obtain ⟨y, hy, hs⟩ := e4 c x hx
      refine kept_set hj (hi.kept c y hy (hs ▸ ho)) (t' := .counted p c1) (by simp [setT, e1]) ?_ (by simp [Closes])
        (fun p0 q0 h0 hc0 => .inl ⟨q0, by simpa [setT, e3] using h0, hc0⟩) (by simp [setT, e2])
      exact fun h => .inl ⟨.counted p c1, by simp only [setT, e1]; exact mem_set_new hj, h⟩
    · rename_i p c1 hj
      split at h
      · rename_i x0 hx0
        cases h
        generalize ht : (if x0.counter ≤ 20 then T.toPut p c1 else T.holding c1) = t'
        have hr : ref t' = some c1 := by rw [← ht]; split <;> rfl
        have hb : ∀ p' c', t' = .putting p' c' ∨ t' = .returning p' c' → s.current = some p' := by
          intro p' c' h; rw [← ht] at h; split at h <;> simp at h
        refine ⟨?_, back_set (j := j) (t' := t') hi rfl hb (fun _ h => h)⟩
        intro c x hx ho
        refine kept_set hj (hi.kept c x hx ho) (t' := t') rfl ?_ (by simp [Closes]) (fun p0 q0 h0 hc0 => .inl ⟨q0, h0, hc0⟩) (fun _ h => h)
        intro h
        simp only [ref, Option.some.injEq] at h
        exact .inl ⟨t', mem_set_new hj, by rw [hr, h]⟩
      · cases h
    · rename_i p c1 hj
      obtain ⟨s1, h1, rfl⟩ := Option.map_eq_some_iff.mp h
      obtain ⟨q, hq, rfl⟩ := poolPut_some h1
      refine ⟨?_, back_set (j := j) (t' := .holding c1) hi rfl (by simp) (fun _ h => h)⟩
      intro c x hx ho
      refine kept_set hj (hi.kept c x hx ho) (t' := .holding c1) rfl ?_ (by simp [Closes])
        (fun p0 q0 h0 hc0 => .inl (pools_set hq h0 hc0 fun h => by simp [h])) (fun _ h => h)
      exact fun h => .inl ⟨.holding c1, mem_set_new hj, h⟩
    · rename_i c1 hj
      generalize hp : provider s = sp at h
      obtain ⟨s1, p⟩ := sp
      cases h
      obtain ⟨e1, e2, e3, e4, e5⟩ := provider_kept hp
      refine ⟨?_, back_set (j := j) (t' := .putting p c1) hi (by simp [setT, e1]) (by rintro p' c' (h | h) <;> cases h; exact e3) e4⟩
      intro c x hx ho
      simp only [setT, e2] at hx
      refine kept_set hj (hi.kept c x hx ho) (t' := .putting p c1) (by simp [setT, e1]) ?_ (by simp [Closes])
        (fun p0 q0 h0 hc0 => .inl ⟨q0, e5 p0 q0 h0, hc0⟩) e4
      exact fun h => .inl ⟨.putting p c1, by simp only [setT, e1]; exact mem_set_new hj, h⟩
    · rename_i p c1 hj
      obtain ⟨s1, h1, rfl⟩ := Option.map_eq_some_iff.mp h
      obtain ⟨e1, e2, e3, e4⟩ := setCounter_kept h1
      have hb := hi.back p c1 (.inl (List.mem_of_getElem? hj))
      refine ⟨?_, back_set (j := j) (t' := .returning p c1) hi (by simp [setT, e1]) (by rintro p' c' (h | h) <;> cases h; simpa [setT, e2] using hb) (by simp [setT, e2])⟩
      intro c x hx ho
      obtain ⟨y, hy, hs⟩ := e4 c x hx
      refine kept_set hj (hi.kept c y hy (hs ▸ ho)) (t' := .returning p c1) (by simp [setT, e1]) ?_ (by simp [Closes])
        (fun p0 q0 h0 hc0 => .inl ⟨q0, by simpa [setT, e3] using h0, hc0⟩) (by simp [setT, e2])
      exact fun h => .inl ⟨.returning p c1, by simp only [setT, e1]; exact mem_set_new hj, h⟩
    · rename_i p c1 hj
      have hb := hi.back p c1 (.inr (List.mem_of_getElem? hj))
      split at h
      · rename_i x0 hx0
        split at h
        · rename_i hrd
          obtain ⟨s1, h1, rfl⟩ := Option.map_eq_some_iff.mp h
          obtain ⟨q, hq, rfl⟩ := poolPut_some h1
          refine ⟨?_, back_set (j := j) (t' := .done) hi rfl (by simp) (fun _ h => h)⟩
          intro c x hx ho
          have hold : ∃ y, s.conns[c]? = some y ∧ y.state ≠ .shutdown := by
            simp only [setT, List.getElem?_set] at hx
            split at hx
            · rename_i e
              subst e
              exact ⟨x0, hx0, by rw [hrd]; simp⟩
            · exact ⟨x, hx, ho⟩
          obtain ⟨y, hy, hys⟩ := hold
          refine kept_set hj (hi.kept c y hy hys) (t' := .done) rfl ?_ (by simp [Closes])
            (fun p0 q0 h0 hc0 => .inl (pools_set hq h0 hc0 fun h => by simp [h])) (fun _ h => h)
          intro h
          simp only [ref, Option.some.injEq] at h
          subst h
          exact .inr ⟨p, _, getElem?_set_self' hq, by simp, .inl hb⟩
        · cases h
          refine ⟨?_, back_set (j := j) (t' := .done) hi rfl (by simp) (fun _ h => h)⟩
          intro c x hx ho
          simp only [setT] at hx
          obtain ⟨hcc, hx1⟩ := shut_open hx ho
          replace hx := hx1
          clear hx1
          refine kept_set hj (hi.kept c x hx ho) (t' := .done) rfl ?_ (by simp [Closes]) (fun p0 q0 h0 hc0 => .inl ⟨q0, h0, hc0⟩) (fun _ h => h)
          intro h
          simp only [ref, Option.some.injEq] at h
          exact absurd h.symm hcc
      · cases h
    · rename_i p hj
      split at h
      · rename_i q hq
        cases h
        refine ⟨?_, back_set (j := j) (t' := .closing p 1000) hi rfl (by simp) (fun _ h => h)⟩
        intro c x hx ho
        exact kept_set hj (hi.kept c x hx ho) (t' := .closing p 1000) rfl (by simp [ref]) (fun p' h => .inl (by simpa [Closes] using h))
          (fun p0 q0 h0 hc0 => .inl (pools_set hq h0 hc0 id)) (fun _ h => h)
      · cases h
    · rename_i p hj
      cases h
      refine ⟨?_, back_set (j := j) (t' := .done) hi rfl (by simp) (fun _ h => h)⟩
      intro c x hx ho
      refine kept_set hj (hi.kept c x hx ho) (t' := .done) rfl (by simp [ref]) ?_ (fun p0 q0 h0 hc0 => .inl ⟨q0, h0, hc0⟩) (fun _ h => h)
      intro p' h
      simp only [Closes, decide_eq_true_eq] at h
      subst h
      exact .inr fun q hq => by rw [hl p' hj q hq]; simp
    · cases h

theorem LReach.kinv {s : PState} (h : LReach s) : KInv s := by
  induction h with
  | init => exact ⟨by simp [Pool.init], by simp [Pool.init]⟩
  | step l _ hl h ih => exact kinv_step ih hl h

end Pool

/-- The part that holds: with luck. -/
theorem C179_partial {s : PState} (h : LReach s) (c : Nat) (x : Conn) (hx : s.conns[c]? = some x) (ho : x.state ≠ .shutdown) : Kept s c :=
  h.kinv.kept c x hx ho

namespace Pool

theorem not_kept {s : PState} {c : Nat} (h1 : ∀ t ∈ s.threads, ref t ≠ some c)
    (h2 : ∀ (p : Nat) (q : CPool), s.pools[p]? = some q → c ∈ q.content → s.current ≠ some p ∧ ∀ t ∈ s.threads, Closes p t = false) : ¬ Kept s c := by
  rintro (⟨t, a, b⟩ | ⟨p, q, a, b, d⟩)
  · exact h1 t a b
  · obtain ⟨e1, e2⟩ := h2 p q a b
    rcases d with d | ⟨t, d1, d2⟩
    · exact e1 d
    · rw [e2 t d1] at d2; cases d2

/-- The connection is open, and nobody can reach it. -/
def Forgotten (s : PState) (c : Nat) : Prop := ∃ x, s.conns[c]? = some x ∧ x.state ≠ .shutdown ∧ ¬ Kept s c

def forgottenB (s : PState) (c : Nat) : Bool :=
  (s.conns[c]?).any (fun x => decide (x.state ≠ .shutdown)) && s.threads.all (fun t => decide (ref t ≠ some c)) &&
    (List.range s.pools.length).all fun p => (s.pools[p]?).all fun q =>
      !decide (c ∈ q.content) || (decide (s.current ≠ some p) && s.threads.all fun t => !Closes p t)

theorem forgotten_of {s : PState} {c : Nat} (h : forgottenB s c = true) : Forgotten s c := by
  unfold forgottenB at h
  simp only [Bool.and_eq_true, List.all_eq_true, decide_eq_true_eq] at h
  obtain ⟨⟨h1, h2⟩, h3⟩ := h
  cases hx : s.conns[c]? with
  | none => rw [hx] at h1; cases h1
  | some x =>
    rw [hx] at h1
    refine ⟨x, hx, by simpa using h1, not_kept h2 ?_⟩
    intro p q hq hc
    have := h3 p (List.mem_range.mpr (List.getElem?_eq_some_iff.mp hq).1)
    rw [hq] at this
    simp only [Option.all_some, hc, decide_true, Bool.not_true, Bool.false_or, Bool.and_eq_true, decide_eq_true_eq, List.all_eq_true,
      Bool.not_eq_true'] at this
    exact this

end Pool

/-- `sync.Pool` may drop its items at any time, and does not close them. -/
theorem C179_dropped : ∃ s, Reach s ∧ (∀ t ∈ s.threads, t = .done) ∧ Forgotten s 0 := by
  obtain ⟨s, h1, h2⟩ := any_exec (ls := getRun 0 (.new true) ++ [.net 0 .ready] ++ putRun 0 ++ [.drop 0 0, .drop 0 0])
    (P := fun (s : PState) => decide (∀ t ∈ s.threads, t = .done) && forgottenB s 0) (by decide +kernel)
  simp only [Bool.and_eq_true, decide_eq_true_eq] at h2
  exact ⟨s, h1, h2.1, forgotten_of h2.2⟩

theorem C179_fails : ¬ C179_statement := by
  intro h
  obtain ⟨s, h1, -, x, h3, h4, h5⟩ := C179_dropped
  exact h5 (h s h1 0 x h3 h4)

/-- A pool that is replaced by a fresh one (util/connpool.go:34, `WithRefreshAfterWrite`) is not closed. -/
theorem C179_replaced : ∃ s, Reach s ∧ (∀ t ∈ s.threads, t = .done) ∧ Forgotten s 0 := by
  obtain ⟨s, h1, h2⟩ := any_exec (ls := getRun 0 (.new true) ++ [.net 0 .ready] ++ putRun 0 ++ [.evict false])
    (P := fun (s : PState) => decide (∀ t ∈ s.threads, t = .done) && forgottenB s 0) (by decide +kernel)
  simp only [Bool.and_eq_true, decide_eq_true_eq] at h2
  exact ⟨s, h1, h2.1, forgotten_of h2.2⟩

namespace Pool

/-- A connection is used, as the only one, and given back to the pool. -/
theorem use_exec (n r : Nat) (ts : List T) : exec ⟨[⟨.ready, 0, r⟩], [⟨0 :: List.replicate n 0, false⟩], some 0, ts⟩
    (getRun ts.length (.item 0) ++ putRun ts.length) =
    some ⟨[⟨.ready, 0, r + 1⟩], [⟨0 :: List.replicate (n + 1) 0, false⟩], some 0, ts ++ [.done]⟩ := by
  have hr : List.replicate n 0 ++ [0, 0] = 0 :: List.replicate (n + 1) 0 := by
    rw [← List.replicate_succ, show [0, 0] = List.replicate 2 0 from rfl, List.replicate_append_replicate]
  simp [getRun, putRun, exec, step, provider, setT, attempt, fetch, setCounter, poolPut, hr]

/-- `n` uses one after the other. -/
def uses : Nat → Nat → List Label
  | _, 0 => []
  | j, n + 1 => getRun j (.item 0) ++ putRun j ++ uses (j + 1) n

theorem exec_append : ∀ (ls ls' : List Label) (s : PState), exec s (ls ++ ls') = (exec s ls).bind fun s => exec s ls'
  | [], _, _ => rfl
  | l :: ls, ls', s => by
    simp only [List.cons_append, exec]
    cases step s l with
    | none => rfl
    | some s1 => exact exec_append ls ls' s1

theorem uses_exec : ∀ (n m r : Nat) (ts : List T), exec ⟨[⟨.ready, 0, r⟩], [⟨0 :: List.replicate m 0, false⟩], some 0, ts⟩ (uses ts.length n) =
    some ⟨[⟨.ready, 0, r + n⟩], [⟨0 :: List.replicate (m + n) 0, false⟩], some 0, ts ++ List.replicate n .done⟩
  | 0, m, r, ts => by simp [uses, exec]
  | n + 1, m, r, ts => by
    have := uses_exec n (m + 1) (r + 1) (ts ++ [.done])
    rw [List.length_append, List.length_singleton] at this
    rw [uses, exec_append, use_exec, Option.bind_some, this]
    simp [List.replicate_succ]
    omega

/-- The first use makes the connection. -/
def first : List Label := getRun 0 (.new true) ++ [.net 0 .ready] ++ putRun 0

theorem first_exec : exec init first = some ⟨[⟨.ready, 0, 1⟩], [⟨[0, 0], false⟩], some 0, [.done]⟩ := by decide +kernel

end Pool

/-- C180, full statement: a pool holds a connection at most once.  FALSE of the code. -/
def C180_statement : Prop := ∀ s, Reach s → ∀ q ∈ s.pools, q.content.Nodup

/-- Each use that is given back leaves one more entry. -/
theorem C180_grows (n : Nat) : exec init (first ++ uses 1 n) =
    some ⟨[⟨.ready, 0, n + 1⟩], [⟨List.replicate (n + 2) 0, false⟩], some 0, List.replicate (n + 1) .done⟩ := by
  have := uses_exec n 1 1 [.done]
  rw [exec_append, first_exec, Option.bind_some]
  rw [show uses 1 n = uses [T.done].length n from rfl]
  refine Eq.trans this ?_
  simp [List.replicate_succ, Nat.add_comm]

theorem C180_fails : ¬ C180_statement := by
  intro h
  have h1 := h _ (exec_reach _ .init (C180_grows 0)) _ (List.mem_singleton_self _)
  simp [List.replicate] at h1

/-- The part that holds: a connection that was given back `r` times is in the pools, and in the hands of those who are taking it, at
most `r + 1` times. -/
theorem C180_partial {s : PState} (hr : Reach s) (c : Nat) (x : Conn) (hx : s.conns[c]? = some x) : copies s c ≤ 1 + x.returned := by
  obtain ⟨lost, h1, -⟩ := (reach_inv hr).tokens c x hx
  omega

example : ∃ s, Reach s ∧ s.conns[0]? = some ⟨.ready, 0, 3⟩ ∧ copies s 0 = 1 + 3 :=
  ⟨_, exec_reach _ .init (C180_grows 2), rfl, by decide⟩

namespace Pool

/-- Nothing is dropped, and every pool that is replaced is closed. -/
def tame : Label → Bool
  | .drop _ _ => false
  | .evict notify => notify
  | _ => true

theorem tame_of {ls : List Label} (h : ls.all tame = true) : ∀ l ∈ ls, (∀ p i, l ≠ .drop p i) ∧ l ≠ .evict false := by
  intro l hl
  have := List.all_eq_true.mp h l hl
  constructor
  · rintro p i rfl; cases this
  · rintro rfl; cases this

/-- Twenty-one users; the last one does not put the connection back. -/
def manyUsers : List Label :=
  getRun 0 (.new true) ++ [.net 0 .ready] ++ ((List.range 19).flatMap fun j => getRun (j + 1) (.item 0)) ++ getRunFull 20 (.item 0)

end Pool

/-- A connection that is given back while its pool is being closed goes into the closed pool. -/
theorem C179_late : ∃ ls s, exec init ls = some s ∧ (∀ t ∈ s.threads, t = .done) ∧ Forgotten s 0 ∧
    (∀ l ∈ ls, (∀ p i, l ≠ .drop p i) ∧ l ≠ .evict false) := by
  let ls := manyUsers ++ ((List.range 21).map fun j => .go j) ++ [.evict true, .go 21] ++ List.replicate 1000 (.close 21 (.new true)) ++
    [.go 21] ++ ((List.range 21).map fun j => .go j) ++ ((List.range 21).map fun j => .go j)
  have h : (exec init ls).any (fun (s : PState) => decide (∀ t ∈ s.threads, t = .done) && forgottenB s 0) = true := by decide +kernel
  cases hs : exec init ls with
  | none => rw [hs] at h; cases h
  | some s =>
    rw [hs] at h
    simp only [Option.any_some, Bool.and_eq_true, decide_eq_true_eq] at h
    exact ⟨ls, s, hs, h.1, forgotten_of h.2, tame_of (by decide +kernel)⟩

namespace Pool

/-- `CloseAll` takes `k` entries of the first connection. -/
theorem close_exec : ∀ (k : Nat) (x y : Conn) (rest : List Nat) (ts : List T),
    exec ⟨[x, y], [⟨List.replicate k 0 ++ rest, true⟩], none, ts ++ [.closing 0 k]⟩ (List.replicate k (.close ts.length (.item 0))) =
    some ⟨[if k = 0 then x else { x with state := .shutdown }, y], [⟨rest, true⟩], none, ts ++ [.closing 0 0]⟩
  | 0, x, y, rest, ts => by simp [exec]
  | k + 1, x, y, rest, ts => by
    have := close_exec k { x with state := .shutdown } y rest ts
    have e : step ⟨[x, y], [⟨List.replicate (k + 1) 0 ++ rest, true⟩], none, ts ++ [.closing 0 (k + 1)]⟩ (.close ts.length (.item 0)) =
        some ⟨[{ x with state := .shutdown }, y], [⟨List.replicate k 0 ++ rest, true⟩], none, ts ++ [.closing 0 k]⟩ := by
      simp [step, fetch, List.replicate_succ, shut, setT]
    rw [List.replicate_succ (a := Label.close ts.length (.item 0)), exec, e, Option.bind_some, this]
    simp

/-- A second connection is made, used and given back, and then the pool is dropped. -/
def second (j : Nat) : List Label := getRun j (.new true) ++ [.net 1 .ready] ++ putRun j ++ [.evict true, .go (j + 1)]

theorem second_exec (n r : Nat) (ts : List T) : exec ⟨[⟨.ready, 0, r⟩], [⟨List.replicate n 0, false⟩], some 0, ts⟩ (second ts.length) =
    some ⟨[⟨.ready, 0, r⟩, ⟨.ready, 0, 1⟩], [⟨List.replicate n 0 ++ [1, 1], true⟩], none, ts ++ [.done] ++ [.closing 0 1000]⟩ := by
  simp [second, getRun, putRun, exec, step, provider, setT, attempt, fetch, setCounter, poolPut]

theorem last_exec (cs : List Conn) (ps : List CPool) (cur : Option Nat) (ts : List T) :
    exec ⟨cs, ps, cur, ts ++ [.closing 0 0]⟩ [.go ts.length] = some ⟨cs, ps, cur, ts ++ [.done]⟩ := by
  simp [exec, step, setT]

theorem replicate_snoc {α : Type} (n : Nat) (a : α) : List.replicate n a ++ [a] = List.replicate (n + 1) a := by
  rw [show [a] = List.replicate 1 a from rfl, List.replicate_append_replicate]

/-- ... with at least 1000 entries of the first connection. -/
theorem thousand_exec (k n : Nat) (hk : k + 2 = 1000) :
    exec init (first ++ uses 1 (k + n) ++ second (k + n + 1) ++ List.replicate (k + 2) (.close (k + n + 2) (.item 0)) ++ [.go (k + n + 2)]) =
    some ⟨[⟨.shutdown, 0, k + n + 1⟩, ⟨.ready, 0, 1⟩], [⟨List.replicate n 0 ++ [1, 1], true⟩], none, List.replicate (k + n + 3) .done⟩ := by
  have h1 := C180_grows (k + n)
  have h2 := second_exec (k + n + 2) (k + n + 1) (List.replicate (k + n + 1) .done)
  have e : List.replicate (k + n + 2) 0 = List.replicate (k + 2) 0 ++ List.replicate n 0 := by
    rw [List.replicate_append_replicate, show k + n + 2 = (k + 2) + n by omega]
  rw [List.length_replicate, ← hk, replicate_snoc, e, List.append_assoc] at h2
  have h3 := close_exec (k + 2) ⟨.ready, 0, k + n + 1⟩ ⟨.ready, 0, 1⟩ (List.replicate n 0 ++ [1, 1]) (List.replicate (k + n + 1 + 1) .done)
  have h4 := last_exec [⟨.shutdown, 0, k + n + 1⟩, ⟨.ready, 0, 1⟩] [⟨List.replicate n 0 ++ [1, 1], true⟩] none (List.replicate (k + n + 1 + 1) .done)
  rw [List.length_replicate, if_neg (by omega)] at h3
  rw [List.length_replicate, replicate_snoc] at h4
  rw [e] at h1
  rw [exec_append, exec_append, exec_append, h1, Option.bind_some, h2, Option.bind_some]
  refine Eq.trans (congrArg (fun o => Option.bind o _) h3) ?_
  exact h4

theorem uses_tame : ∀ (n j : Nat), (uses j n).all tame = true
  | 0, _ => rfl
  | n + 1, j => by rw [uses, List.all_append, uses_tame n (j + 1), Bool.and_true]; rfl

end Pool

/-- `CloseAll` stops after 1000 entries: after 1000 uses of one connection another one may be left out, although nothing is dropped and nobody
else is at work. -/
theorem C179_thousand : ∃ ls s, exec init ls = some s ∧ (∀ t ∈ s.threads, t = .done) ∧ s.conns[1]? = some ⟨.ready, 0, 1⟩ ∧ Forgotten s 1 ∧
    (∀ l ∈ ls, (∀ p i, l ≠ .drop p i) ∧ l ≠ .evict false) := by
  have h := thousand_exec 998 0 rfl
  refine ⟨_, _, h, ?_, rfl, ⟨_, rfl, by simp, not_kept ?_ ?_⟩, ?_⟩
  · exact fun t ht => List.eq_of_mem_replicate ht
  · intro t ht; rw [List.eq_of_mem_replicate ht]; simp [ref]
  · intro p q hq hc
    refine ⟨by simp, ?_⟩
    intro t ht; rw [List.eq_of_mem_replicate ht]; rfl
  · apply tame_of
    rw [List.all_append, List.all_append, List.all_append, List.all_append, uses_tame, List.all_replicate]
    rfl

namespace Pool

def luckyB (s : PState) : Label → Bool
  | .drop _ _ => false
  | .evict notify => notify && s.threads.all fun t => !Returns t
  | .go j =>
    match s.threads[j]? with
    | some (.closing p 0) => (s.pools[p]?).all fun q => q.content.isEmpty
    | _ => true
  | _ => true

theorem lucky_of {s : PState} {l : Label} (h : luckyB s l = true) : Lucky s l := by
  cases l with
  | drop p i => cases h
  | evict notify =>
    simp only [luckyB, Bool.and_eq_true, List.all_eq_true, Bool.not_eq_true'] at h
    exact h
  | go j =>
    intro p hj q hq
    simp only [luckyB, hj, hq, Option.all_some, List.isEmpty_iff] at h
    exact h
  | _ => trivial

def luckyRun : PState → List Label → Option PState
  | s, [] => some s
  | s, l :: ls => if luckyB s l then (step s l).bind fun s => luckyRun s ls else none

theorem luckyRun_reach : ∀ (ls : List Label) (s s' : PState), LReach s → luckyRun s ls = some s' → LReach s'
  | [], s, s', h, e => by cases e; exact h
  | l :: ls, s, s', h, e => by
    simp only [luckyRun] at e
    split at e
    · rename_i hl
      obtain ⟨s1, h1, h2⟩ := Option.bind_eq_some_iff.mp e
      exact luckyRun_reach ls s1 s' (.step l h (lucky_of hl) h1) h2
    · cases e

end Pool

/-- A pool is dropped and closed, and a connection of the next one is in use. -/
theorem C179_example : ∃ s, LReach s ∧ s.conns = [⟨.shutdown, 0, 1⟩, ⟨.idle, 1, 0⟩] ∧ Kept s 1 ∧ ¬ Kept s 0 := by
  have h : (luckyRun init (first ++ [.evict true, .go 1, .close 1 (.item 0), .close 1 (.item 0)] ++ List.replicate 998 (.close 1 (.new true)) ++
      [.go 1] ++ getRun 2 (.new true))).any (fun (s : PState) => decide (s.conns = [⟨.shutdown, 0, 1⟩, ⟨.idle, 1, 0⟩] ∧
        s.threads.all (fun t => decide (ref t ≠ some 0)) = true ∧ s.pools.all (fun q => decide (0 ∉ q.content)) = true)) = true := by decide +kernel
  obtain ⟨s, h1, h2⟩ := (Option.any_eq_true _ _).mp h
  simp only [decide_eq_true_eq, List.all_eq_true] at h2
  obtain ⟨e1, e2, e3⟩ := h2
  have hr := luckyRun_reach _ _ _ .init h1
  refine ⟨s, hr, e1, C179_partial hr 1 _ (by rw [e1]; rfl) (by simp), not_kept e2 ?_⟩
  exact fun p q hq hc => absurd hc (e3 q (List.mem_of_getElem? hq))

end Veri
