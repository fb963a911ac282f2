import Verif.Pool.Model
/-
C64-C67: the connection pool.
-/
set_option autoImplicit false
namespace Veri
open Pool

namespace Pool

theorem shut_length (conns : List Conn) (c : Nat) : (shut conns c).length = conns.length := by
  unfold shut; split <;> simp

theorem fetch_spec {conns conns' : List Conn} {p p' : CPool} {k : Pick} {r : Option Nat} (h : fetch conns p k = some (conns', p', r)) :
    p'.closed = p.closed ∧
    ((∃ i c, k = .item i ∧ p.content[i]? = some c ∧ conns' = conns ∧ p'.content = p.content.eraseIdx i ∧ r = some c) ∨
     (conns' = conns ∧ p' = p ∧ r = none) ∨
     (p.closed = false ∧ conns' = conns ++ [⟨.idle, 0, 0⟩] ∧ p' = p ∧ r = some conns.length)) := by
  cases k with
  | item i =>
    simp only [fetch] at h
    split at h
    · rename_i c hc
      cases h
      exact ⟨rfl, Or.inl ⟨i, c, rfl, hc, rfl, rfl, rfl⟩⟩
    · cases h
  | new dial =>
    simp only [fetch] at h
    split at h
    · cases h; exact ⟨rfl, Or.inr (Or.inl ⟨rfl, rfl, rfl⟩)⟩
    · rename_i hc
      cases h
      refine ⟨rfl, Or.inr (Or.inr ⟨?_, rfl, rfl, rfl⟩)⟩
      cases hp : p.closed <;> simp [hp] at hc ⊢

theorem attempt_spec {conns conns' : List Conn} {p p' : CPool} {k : Pick} {r : Option Nat} (h : attempt conns p k = some (conns', p', r)) :
    ∃ r0 conns1, fetch conns p k = some (conns1, p', r0) ∧
      ((r0 = none ∧ r = none ∧ conns' = conns1) ∨
       (∃ c x, r0 = some c ∧ r = some c ∧ conns' = conns1 ∧ conns1[c]? = some x ∧ x.state ≠ .shutdown) ∨
       (∃ c x, r0 = some c ∧ r = none ∧ conns' = shut conns1 c ∧ conns1[c]? = some x ∧ x.state = .shutdown)) := by
  unfold attempt at h
  split at h
  · cases h
  · rename_i c1 p1 hf
    cases h
    exact ⟨none, _, hf, Or.inl ⟨rfl, rfl, rfl⟩⟩
  · rename_i c1 p1 c hf
    split at h
    · cases h
    · rename_i x hx
      split at h
      · rename_i hs
        cases h
        exact ⟨_, _, hf, Or.inr (Or.inl ⟨c, x, rfl, rfl, rfl, hx, hs⟩)⟩
      · rename_i hs
        cases h
        exact ⟨_, _, hf, Or.inr (Or.inr ⟨c, x, rfl, rfl, rfl, hx, by simpa using hs⟩)⟩

end Pool

/-! ### C64 -/

/-- C64: the connection returned is not shut down, there are at most four tries, each of which takes one item from the pool or
makes one connection, and a closed pool makes no connection. -/
theorem C64_get : ∀ (ks : List Pick) (count : Nat) (conns conns' : List Conn) (p p' : CPool) (r : Option Nat) (tries : Nat), count ≤ 4 →
    getWithRetry count conns p ks = some (conns', p', r, tries) →
    (∀ c, r = some c → ∃ x, conns'[c]? = some x ∧ x.state ≠ .shutdown) ∧ tries ≤ 4 ∧
    conns'.length ≤ conns.length + (tries - count) ∧ (p.closed = true → conns'.length = conns.length)
  | [], count, conns, conns', p, p', r, tries, hc, h => by
    rw [getWithRetry] at h
    split at h
    · cases h; exact ⟨by simp, hc, by omega, by simp⟩
    · cases h
  | k :: ks, count, conns, conns', p, p', r, tries, hc, h => by
    rw [getWithRetry] at h
    split at h
    · cases h; exact ⟨by simp, hc, by omega, by simp⟩
    · split at h
      · cases h
      · rename_i c1 p1 c ha
        cases h
        obtain ⟨r0, c2, hf, h0⟩ := attempt_spec ha
        obtain ⟨hcl, hf⟩ := fetch_spec hf
        rcases h0 with ⟨-, h, -⟩ | ⟨c', x, rfl, h, rfl, hx, hs⟩ | ⟨-, -, -, h, -⟩
        · cases h
        · cases h
          refine ⟨?_, by omega, ?_, ?_⟩
          · intro c' hc'; cases hc'; exact ⟨x, hx, hs⟩
          · rcases hf with ⟨i, c, -, -, rfl, -⟩ | ⟨rfl, -⟩ | ⟨-, rfl, -⟩
            · omega
            · omega
            · simp
          · intro hp
            rcases hf with ⟨i, c, -, -, rfl, -⟩ | ⟨rfl, -⟩ | ⟨hp', -, -⟩
            · rfl
            · rfl
            · rw [hp] at hp'; cases hp'
        · cases h
      · rename_i c1 p1 ha
        obtain ⟨r0, c2, hf, h0⟩ := attempt_spec ha
        obtain ⟨hcl, hf⟩ := fetch_spec hf
        have hlen : c1.length = c2.length := by
          rcases h0 with ⟨-, -, rfl⟩ | ⟨c', x, -, h, -⟩ | ⟨c', x, -, -, rfl, -⟩
          · rfl
          · cases h
          · exact shut_length _ _
        obtain ⟨h1, h2, h3, h4⟩ := C64_get ks (count + 1) c1 conns' p1 p' r tries (by omega) h
        have htr : count + 1 ≤ tries := by
          clear h1 h2 h3 h4
          have : ∀ (ks : List Pick) (count : Nat) (conns : List Conn) (p : CPool), getWithRetry count conns p ks = some (conns', p', r, tries) →
              count ≤ tries := by
            intro ks
            induction ks with
            | nil => intro count conns p h; rw [getWithRetry] at h; split at h <;> cases h; omega
            | cons k ks ih =>
              intro count conns p h
              rw [getWithRetry] at h
              split at h
              · cases h; omega
              · split at h
                · cases h
                · cases h; omega
                · have := ih _ _ _ h; omega
          exact this ks (count + 1) c1 p1 h
        refine ⟨h1, h2, ?_, ?_⟩
        · rcases hf with ⟨i, c, -, -, rfl, -⟩ | ⟨rfl, -⟩ | ⟨-, rfl, -⟩
          · omega
          · omega
          · simp at hlen; omega
        · intro hp
          rw [h4 (by rw [hcl]; exact hp), hlen]
          rcases hf with ⟨i, c, -, -, rfl, -⟩ | ⟨rfl, -⟩ | ⟨hp', -⟩
          · rfl
          · rfl
          · rw [hp] at hp'; cases hp'

/-- C64: if four items can be had one after the other (connections may also be made), the call returns: the four tries are
enough. -/
theorem C64_returns (conns : List Conn) (p : CPool) (ks : List Pick) (h : ∀ k ∈ ks, ∃ d, k = .new d) (hl : ks.length = 4) :
    ∃ r, getWithRetry 0 conns p ks = some r := by
  have key : ∀ (ks : List Pick) (count : Nat) (conns : List Conn) (p : CPool), (∀ k ∈ ks, ∃ d, k = .new d) → ks.length + count = 4 →
      ∃ r, getWithRetry count conns p ks = some r := by
    intro ks
    induction ks with
    | nil => intro count conns p _ hl; exact ⟨_, by rw [getWithRetry, if_pos (by simp at hl; omega)]⟩
    | cons k ks ih =>
      intro count conns p h hl
      rw [getWithRetry]
      split
      · exact ⟨_, rfl⟩
      · obtain ⟨d, rfl⟩ := h k (by simp)
        split
        · rename_i ha
          unfold attempt at ha
          simp only [fetch] at ha
          by_cases hc : p.closed = true ∨ d = false
          · simp [hc] at ha
          · simp [hc] at ha
        · exact ⟨_, rfl⟩
        · exact ih _ _ _ (fun k hk => h k (by simp [hk])) (by simp at hl; omega)
  exact key ks 0 conns p h (by omega)

example : getWithRetry 0 [⟨.shutdown, 0, 0⟩, ⟨.ready, 2, 0⟩] ⟨[0, 0, 1], false⟩ [.item 1, .item 0, .item 0] =
    some ([⟨.shutdown, 0, 0⟩, ⟨.ready, 2, 0⟩], ⟨[], false⟩, some 1, 3) ∧
    getWithRetry 0 [⟨.shutdown, 0, 0⟩] ⟨[0], true⟩ [.item 0, .new true, .new true, .new true] = some ([⟨.shutdown, 0, 0⟩], ⟨[], true⟩, none, 4) := by
  decide +kernel

/-! ### C67, C65: counting -/

namespace Pool

/-- The connection a goroutine has hold of. -/
def ref : T → Option Nat
  | .got _ c => some c
  | .counted _ c => some c
  | .toPut _ c => some c
  | .holding c => some c
  | .putting _ c => some c
  | .returning _ c => some c
  | _ => none

/-- Between its increment and its decrement. -/
def inUse (c : Nat) : T → Nat
  | .counted _ c' => if c = c' then 1 else 0
  | .toPut _ c' => if c = c' then 1 else 0
  | .holding c' => if c = c' then 1 else 0
  | .putting _ c' => if c = c' then 1 else 0
  | _ => 0

/-- Has taken an item out and not yet decided about it, or not yet put it back. -/
def inHand (c : Nat) : T → Nat
  | .got _ c' => if c = c' then 1 else 0
  | .counted _ c' => if c = c' then 1 else 0
  | .toPut _ c' => if c = c' then 1 else 0
  | _ => 0

/-- Has incremented and not yet decided. -/
def undecided (c : Nat) : T → Nat
  | .counted _ c' => if c = c' then 1 else 0
  | _ => 0

def total {α : Type} (w : α → Nat) (l : List α) : Nat := (l.map w).sum

theorem total_append {α : Type} (w : α → Nat) (l l' : List α) : total w (l ++ l') = total w l + total w l' := by
  simp [total]

theorem total_set {α : Type} (w : α → Nat) : ∀ (l : List α) (j : Nat) (a b : α), l[j]? = some a →
    total w (l.set j b) + w a = total w l + w b
  | [], j, a, b, h => by simp at h
  | x :: l, 0, a, b, h => by
    simp only [List.getElem?_cons_zero, Option.some.injEq] at h
    subst h
    simp [total]; omega
  | x :: l, j + 1, a, b, h => by
    have := total_set w l j a b (by simpa using h)
    simp [total] at this ⊢; omega

/-- Copies of the connection in the pools. -/
def copies (s : PState) (c : Nat) : Nat := total (fun q : CPool => q.content.count c) s.pools

theorem count_eraseIdx (l : List Nat) (i c x : Nat) (h : l[i]? = some x) :
    (l.eraseIdx i).count c + (if c = x then 1 else 0) = l.count c := by
  induction l generalizing i with
  | nil => simp at h
  | cons a l ih =>
    cases i with
    | zero =>
      simp only [List.getElem?_cons_zero, Option.some.injEq] at h
      subst h
      simp only [List.eraseIdx_zero, List.tail_cons, List.count_cons, beq_iff_eq]
      by_cases hx : c = a <;> simp [hx]
      exact fun e => hx e.symm
    | succ i =>
      have := ih i (by simpa using h)
      rw [List.eraseIdx_cons_succ, List.count_cons, List.count_cons]
      omega

theorem count_eraseIdx_le (l : List Nat) (i c : Nat) : (l.eraseIdx i).count c ≤ l.count c :=
  (List.eraseIdx_sublist l i).count_le c

/-- What is true in every state. -/
structure Inv (s : PState) : Prop where
  refs : ∀ (t : T), t ∈ s.threads → ∀ (c : Nat), ref t = some c → c < s.conns.length
  items : ∀ (q : CPool), q ∈ s.pools → ∀ (c : Nat), c ∈ q.content → c < s.conns.length
  balance : ∀ (c : Nat) (x : Conn), s.conns[c]? = some x → x.counter = (total (inUse c) s.threads : Nat)
  tokens : ∀ (c : Nat) (x : Conn), s.conns[c]? = some x → ∃ lost,
    copies s c + total (inHand c) s.threads + lost ≤ 1 + x.returned ∧ x.counter ≤ 20 + lost + (total (undecided c) s.threads : Nat)
  tries : ∀ (p count : Nat), T.trying p count ∈ s.threads → count ≤ 4

theorem total_zero {α : Type} (w : α → Nat) (l : List α) (h : ∀ a ∈ l, w a = 0) : total w l = 0 := by
  induction l with
  | nil => rfl
  | cons a l ih =>
    have := ih (fun b hb => h b (by simp [hb]))
    simp only [total, List.map_cons, List.sum_cons, h a (by simp)] at this ⊢
    omega

/-- Nothing refers to a connection that does not exist yet. -/
theorem fresh_zero {s : PState} (hi : Inv s) (c : Nat) (hc : s.conns.length ≤ c) :
    total (inUse c) s.threads = 0 ∧ total (inHand c) s.threads = 0 ∧ copies s c = 0 := by
  have href : ∀ t ∈ s.threads, ref t ≠ some c := fun t ht hr => absurd (hi.refs t ht c hr) (by omega)
  refine ⟨total_zero _ _ ?_, total_zero _ _ ?_, total_zero _ _ ?_⟩
  · intro t ht
    have := href t ht
    cases t <;> simp [ref, inUse] at this ⊢ <;> exact fun e => this e.symm
  · intro t ht
    have := href t ht
    cases t <;> simp [ref, inHand] at this ⊢ <;> exact fun e => this e.symm
  · intro q hq
    refine List.count_eq_zero.mpr ?_
    intro h
    exact absurd (hi.items q hq c h) (by omega)

theorem mem_set_cases {α : Type} {l : List α} {j : Nat} {a x : α} (h : x ∈ l.set j a) : x = a ∨ x ∈ l :=
  (List.mem_or_eq_of_mem_set h).symm

/-- A step that changes one goroutine, in a way that keeps the sums, and maybe the states of connections. -/
theorem inv_of {s s' : PState} (hi : Inv s)
    (hlen : s.conns.length ≤ s'.conns.length)
    (hrefs : ∀ t ∈ s'.threads, t ∈ s.threads ∨ ∀ c, ref t = some c → c < s'.conns.length)
    (hitems : ∀ q ∈ s'.pools, ∀ c ∈ q.content, (∃ q' ∈ s.pools, c ∈ q'.content) ∨ c < s'.conns.length)
    (htries : ∀ p count, T.trying p count ∈ s'.threads → T.trying p count ∈ s.threads ∨ count ≤ 4)
    (hsum : ∀ c x', s'.conns[c]? = some x' →
      (∃ x, s.conns[c]? = some x ∧
        x'.counter + ((total (inUse c) s.threads : Nat) : Int) = x.counter + ((total (inUse c) s'.threads : Nat) : Int) ∧
        x.returned ≤ x'.returned ∧
        ((copies s' c + total (inHand c) s'.threads + x.returned ≤ copies s c + total (inHand c) s.threads + x'.returned ∧
          (x'.counter + ((total (undecided c) s.threads : Nat) : Int) ≤ x.counter + ((total (undecided c) s'.threads : Nat) : Int) ∨ x'.counter ≤ 20)) ∨
         (copies s' c + total (inHand c) s'.threads + x.returned + 1 ≤ copies s c + total (inHand c) s.threads + x'.returned ∧
          x'.counter + ((total (undecided c) s.threads : Nat) : Int) ≤ x.counter + ((total (undecided c) s'.threads : Nat) : Int) + 1))) ∨
      (s.conns.length ≤ c ∧ x'.counter = 0 ∧ total (inUse c) s'.threads = 0 ∧ copies s' c + total (inHand c) s'.threads ≤ 1)) :
    Inv s' where
  refs := by
    intro t ht c hr
    rcases hrefs t ht with h | h
    · have := hi.refs t h c hr; omega
    · exact h c hr
  items := by
    intro q hq c hc
    rcases hitems q hq c hc with ⟨q', hq', hc'⟩ | h
    · have := hi.items q' hq' c hc'; omega
    · exact h
  balance := by
    intro c x' hx'
    rcases hsum c x' hx' with ⟨x, hx, h1, -⟩ | ⟨-, h1, h2, -⟩
    · have := hi.balance c x hx; omega
    · omega
  tokens := by
    intro c x' hx'
    rcases hsum c x' hx' with ⟨x, hx, -, hr, ⟨h1, h2⟩ | ⟨h1, h2⟩⟩ | ⟨-, h1, -, h3⟩
    · obtain ⟨lost, h3, h4⟩ := hi.tokens c x hx
      refine ⟨lost, by omega, by omega⟩
    · obtain ⟨lost, h3, h4⟩ := hi.tokens c x hx
      refine ⟨lost + 1, by omega, by omega⟩
    · exact ⟨0, by omega, by omega⟩
  tries := by
    intro p count h
    rcases htries p count h with h | h
    · exact hi.tries p count h
    · exact h

theorem getElem?_set_self' {α : Type} {l : List α} {j : Nat} {a b : α} (h : l[j]? = some a) : (l.set j b)[j]? = some b := by
  have := (List.getElem?_eq_some_iff.mp h).1
  simp [this]

/-- Connections changed in their state only. -/
theorem shut_get {conns : List Conn} {c c' : Nat} {x' : Conn} (h : (shut conns c)[c']? = some x') :
    ∃ x, conns[c']? = some x ∧ x'.counter = x.counter ∧ x'.returned = x.returned := by
  unfold shut at h
  split at h
  · rename_i x hx
    rw [List.getElem?_set] at h
    split at h
    · rename_i e
      split at h
      · cases h; exact ⟨x, e ▸ hx, rfl, rfl⟩
      · cases h
    · exact ⟨x', h, rfl, rfl⟩
  · exact ⟨x', h, rfl, rfl⟩

/-- What `fetch` does to the sums. -/
theorem fetch_sums {s : PState} (hi : Inv s) {p : Nat} {q q' : CPool} (hq : s.pools[p]? = some q) {k : Pick} {conns1 : List Conn}
    {r : Option Nat} (h : fetch s.conns q k = some (conns1, q', r)) (threads : List T) (cur : Option Nat) :
    s.conns.length ≤ conns1.length ∧ (∀ c, r = some c → c < conns1.length) ∧
    (∀ q2 ∈ s.pools.set p q', ∀ c ∈ q2.content, ∃ q3 ∈ s.pools, c ∈ q3.content) ∧
    ∀ c x', conns1[c]? = some x' →
      (s.conns[c]? = some x' ∧ copies ⟨conns1, s.pools.set p q', cur, threads⟩ c + (if r = some c then 1 else 0) = copies s c) ∨
      (c = s.conns.length ∧ r = some c ∧ x' = ⟨.idle, 0, 0⟩ ∧ copies ⟨conns1, s.pools.set p q', cur, threads⟩ c = 0) := by
  have hmem := List.mem_of_getElem? hq
  obtain ⟨-, hf⟩ := fetch_spec h
  rcases hf with ⟨i, c0, -, hc0, rfl, hct, rfl⟩ | ⟨rfl, rfl, rfl⟩ | ⟨-, rfl, rfl, rfl⟩
  · refine ⟨Nat.le_refl _, ?_, ?_, ?_⟩
    · intro c hc; cases hc
      exact hi.items q hmem _ (List.mem_of_getElem? hc0)
    · intro q2 hq2 c hc
      rcases mem_set_cases hq2 with rfl | hq2
      · rw [hct] at hc
        exact ⟨q, hmem, List.mem_of_mem_eraseIdx hc⟩
      · exact ⟨q2, hq2, hc⟩
    · intro c x' hx'
      refine Or.inl ⟨hx', ?_⟩
      have h1 := total_set (fun q : CPool => q.content.count c) s.pools p q q' hq
      have h2 := count_eraseIdx q.content i c c0 hc0
      simp only [hct] at h1
      simp only [copies]
      by_cases hcc : c = c0
      · simp only [hcc, if_true] at h2 ⊢; simp only [hcc] at h1; omega
      · have : ¬ (some c0 = some c) := fun e => hcc (Option.some.inj e).symm
        rw [if_neg this]
        rw [if_neg hcc] at h2
        omega
  · refine ⟨Nat.le_refl _, by simp, ?_, ?_⟩
    · intro q2 hq2 c hc
      rcases mem_set_cases hq2 with rfl | hq2
      · exact ⟨_, hmem, hc⟩
      · exact ⟨q2, hq2, hc⟩
    · intro c x' hx'
      refine Or.inl ⟨hx', ?_⟩
      have h1 := total_set (fun q : CPool => q.content.count c) s.pools p q' q' hq
      simp only [copies]
      simp
      omega
  · have hcop : ∀ c, copies ⟨s.conns ++ [⟨.idle, 0, 0⟩], s.pools.set p q', cur, threads⟩ c = copies s c := by
      intro c
      have h1 := total_set (fun q : CPool => q.content.count c) s.pools p q' q' hq
      simp only [copies]
      omega
    refine ⟨by simp, by simp, ?_, ?_⟩
    · intro q2 hq2 c hc
      rcases mem_set_cases hq2 with rfl | hq2
      · exact ⟨_, hmem, hc⟩
      · exact ⟨q2, hq2, hc⟩
    · intro c x' hx'
      rw [hcop]
      by_cases hlt : c < s.conns.length
      · rw [List.getElem?_append_left hlt] at hx'
        refine Or.inl ⟨hx', ?_⟩
        rw [if_neg (by simp; omega)]
        omega
      · have hle : s.conns.length ≤ c := by omega
        rw [List.getElem?_append_right hle] at hx'
        by_cases he : c = s.conns.length
        · subst he
          simp at hx'
          exact Or.inr ⟨rfl, rfl, hx'.symm, (fresh_zero hi _ (Nat.le_refl _)).2.2⟩
        · have : c - s.conns.length ≠ 0 := by omega
          simp [this] at hx'

theorem poolPut_some {s s' : PState} {p c : Nat} (h : poolPut s p c = some s') :
    ∃ q, s.pools[p]? = some q ∧ s' = { s with pools := s.pools.set p { q with content := q.content ++ [c] } } := by
  unfold poolPut at h
  split at h
  · rename_i q hq; cases h; exact ⟨q, hq, rfl⟩
  · cases h

theorem copies_put {s : PState} {p c : Nat} {q : CPool} (hq : s.pools[p]? = some q) (conns : List Conn) (cur : Option Nat) (threads : List T) (c' : Nat) :
    copies ⟨conns, s.pools.set p { q with content := q.content ++ [c] }, cur, threads⟩ c' = copies s c' + (if c' = c then 1 else 0) := by
  have h1 := total_set (fun q : CPool => q.content.count c') s.pools p q { q with content := q.content ++ [c] } hq
  simp only [copies, List.count_append, List.count_singleton, beq_iff_eq] at h1 ⊢
  by_cases h : c' = c
  · simp only [h, if_true] at h1 ⊢; omega
  · rw [if_neg h]
    rw [if_neg (fun e => h e.symm)] at h1
    omega

theorem provider_spec (s : PState) : ∃ ps cur p, provider s = ({ s with pools := ps, current := cur }, p) ∧
    (∀ q ∈ ps, ∀ c ∈ q.content, ∃ q' ∈ s.pools, c ∈ q'.content) ∧ (∀ threads cs, ∀ c, copies ⟨cs, ps, cur, threads⟩ c = copies s c) := by
  unfold provider
  split
  · rename_i p hp
    exact ⟨s.pools, s.current, p, rfl, fun q hq c hc => ⟨q, hq, hc⟩, fun _ _ _ => rfl⟩
  · refine ⟨_, _, _, rfl, ?_, ?_⟩
    · intro q hq c hc
      rcases List.mem_append.mp hq with hq | hq
      · exact ⟨q, hq, hc⟩
      · rw [List.mem_singleton.mp hq] at hc; simp at hc
    · intro threads cs c
      simp [copies, total]

theorem threads_refs {s : PState} {j : Nat} {t' : T} (n : Nat) (h : ∀ c, ref t' = some c → c < n) :
    ∀ t ∈ s.threads.set j t', t ∈ s.threads ∨ ∀ c, ref t = some c → c < n := by
  intro t ht
  rcases mem_set_cases ht with rfl | ht
  · exact Or.inr h
  · exact Or.inl ht

theorem threads_tries {s : PState} {j : Nat} {t' : T} (h : ∀ p n, t' = .trying p n → n ≤ 4) :
    ∀ p n, T.trying p n ∈ s.threads.set j t' → T.trying p n ∈ s.threads ∨ n ≤ 4 := by
  intro p n ht
  rcases mem_set_cases ht with e | ht
  · exact Or.inr (h p n e.symm)
  · exact Or.inl ht

theorem step_inv {s s' : PState} {l : Label} (hi : Inv s) (h : step s l = some s') : Inv s' := by
  cases l with
  | arrive =>
    simp only [step, Option.some.injEq] at h
    subst h
    refine inv_of hi (Nat.le_refl _) ?_ (fun q hq c hc => Or.inl ⟨q, hq, hc⟩) ?_ ?_
    · intro t ht
      rcases List.mem_append.mp ht with ht | ht
      · exact Or.inl ht
      · rw [List.mem_singleton.mp ht]; exact Or.inr (by simp [ref])
    · intro p n ht
      rcases List.mem_append.mp ht with ht | ht
      · exact Or.inl ht
      · simp at ht
    · intro c x' hx'
      refine Or.inl ⟨x', hx', ?_⟩
      simp [total_append, total, inUse, inHand, undecided, copies]
  | «try» j k =>
    simp only [step] at h
    split at h
    · rename_i p count hj
      split at h
      · cases h
      · rename_i hcount
        split at h
        · cases h
        · rename_i q hq
          have hT : ∀ (t' : T) (c : Nat), total (inUse c) (s.threads.set j t') = total (inUse c) s.threads + inUse c t' ∧
              total (inHand c) (s.threads.set j t') = total (inHand c) s.threads + inHand c t' ∧
              total (undecided c) (s.threads.set j t') = total (undecided c) s.threads + undecided c t' := by
            intro t' c
            exact ⟨total_set (inUse c) _ j _ t' hj, total_set (inHand c) _ j _ t' hj, total_set (undecided c) _ j _ t' hj⟩
          split at h
          · cases h
          · rename_i conns1 q1 c1 ha
            cases h
            obtain ⟨r0, conns2, hf, h0⟩ := attempt_spec ha
            rcases h0 with ⟨-, h, -⟩ | ⟨c2, x, rfl, h, rfl, hx, -⟩ | ⟨-, -, -, h, -⟩
            · cases h
            · cases h
              obtain ⟨f1, f2, f3, f4⟩ := fetch_sums hi hq hf (s.threads.set j (.got p c1)) s.current
              refine inv_of hi f1 ?_ (fun q hq c hc => Or.inl (f3 q hq c hc)) ?_ ?_
              · exact threads_refs _ (by intro c hc; cases hc; exact f2 c1 rfl)
              · exact threads_tries (by intro p n e; cases e)
              · intro c x' hx'
                have ht := hT (.got p c1) c
                simp only [setT]
                rw [ht.1, ht.2.1, ht.2.2]
                rcases f4 c x' hx' with ⟨g1, g2⟩ | ⟨g1, g2, rfl, g3⟩
                · refine Or.inl ⟨x', g1, by simp [inUse], Nat.le_refl _, Or.inl ⟨?_, Or.inl (by simp [undecided])⟩⟩
                  simp only [inHand]
                  by_cases hcc : c = c1
                  · rw [if_pos (by rw [hcc])] at g2; rw [if_pos hcc]; omega
                  · rw [if_neg (fun e => hcc (Option.some.inj e).symm)] at g2; rw [if_neg hcc]; omega
                · have hz := fresh_zero hi c (by omega)
                  refine Or.inr ⟨by omega, rfl, by simp [inUse, hz.1], ?_⟩
                  simp only [inHand]
                  split <;> omega
            · cases h
          · rename_i conns1 q1 ha
            cases h
            obtain ⟨r0, conns2, hf, h0⟩ := attempt_spec ha
            obtain ⟨f1, f2, f3, f4⟩ := fetch_sums hi hq hf (s.threads.set j (.trying p (count + 1))) s.current
            have hlen : conns1.length = conns2.length := by
              rcases h0 with ⟨-, -, rfl⟩ | ⟨c', x, -, h, -⟩ | ⟨c', x, -, -, rfl, -⟩
              · rfl
              · cases h
              · exact shut_length _ _
            have hget : ∀ (c : Nat) (x' : Conn), conns1[c]? = some x' → ∃ x : Conn, conns2[c]? = some x ∧ x'.counter = x.counter ∧ x'.returned = x.returned := by
              intro c x' hx'
              rcases h0 with ⟨-, -, rfl⟩ | ⟨c', x, -, h, -⟩ | ⟨c', x, -, -, rfl, -⟩
              · exact ⟨x', hx', rfl, rfl⟩
              · cases h
              · exact shut_get hx'
            refine inv_of hi (by simp only [setT]; omega) ?_ (fun q hq c hc => Or.inl (f3 q hq c hc)) ?_ ?_
            · exact threads_refs _ (by intro c hc; cases hc)
            · exact threads_tries (by intro p n e; cases e; omega)
            · intro c x' hx'
              have ht := hT (.trying p (count + 1)) c
              simp only [setT]
              rw [ht.1, ht.2.1, ht.2.2]
              obtain ⟨x2, hx2, e1, e2⟩ := hget c x' hx'
              have hcop : copies ⟨conns1, s.pools.set p q1, s.current, s.threads.set j (.trying p (count + 1))⟩ c =
                copies ⟨conns2, s.pools.set p q1, s.current, s.threads.set j (.trying p (count + 1))⟩ c := rfl
              simp only [inUse, inHand, undecided]
              rw [hcop]
              rcases f4 c x2 hx2 with ⟨g1, g2⟩ | ⟨g1, g2, g4, g3⟩
              · refine Or.inl ⟨x2, g1, by omega, by omega, Or.inl ⟨by omega, Or.inl (by omega)⟩⟩
              · have hz := fresh_zero hi c (by omega)
                have : x2.counter = 0 := by rw [g4]
                refine Or.inr ⟨by omega, by omega, by omega, by omega⟩
    · cases h
  | go j =>
    simp only [step] at h
    have hT : ∀ (t t' : T) (c : Nat), s.threads[j]? = some t →
        total (inUse c) (s.threads.set j t') + inUse c t = total (inUse c) s.threads + inUse c t' ∧
        total (inHand c) (s.threads.set j t') + inHand c t = total (inHand c) s.threads + inHand c t' ∧
        total (undecided c) (s.threads.set j t') + undecided c t = total (undecided c) s.threads + undecided c t' := by
      intro t t' c hj
      exact ⟨total_set (inUse c) _ j _ t' hj, total_set (inHand c) _ j _ t' hj, total_set (undecided c) _ j _ t' hj⟩
    have hself : ∀ q ∈ s.pools, ∀ c ∈ q.content, (∃ q' ∈ s.pools, c ∈ q'.content) ∨ c < s.conns.length :=
      fun q hq c hc => Or.inl ⟨q, hq, hc⟩
    split at h
    · -- start
      rename_i hj
      obtain ⟨ps, cur, p, hp, h1, h2⟩ := provider_spec s
      rw [hp] at h
      cases h
      refine inv_of hi (Nat.le_refl _) (threads_refs _ (by simp [ref])) (fun q hq c hc => Or.inl (h1 q hq c hc))
        (threads_tries (by intro p n e; cases e; omega)) ?_
      intro c x' hx'
      have ht := hT _ (.trying p 0) c hj
      simp only [setT]
      rw [h2]
      simp only [inUse, inHand, undecided] at ht
      refine Or.inl ⟨x', hx', by omega, by omega, Or.inl ⟨by omega, Or.inl (by omega)⟩⟩
    · -- trying
      rename_i p count hj
      split at h
      · cases h
        refine inv_of hi (Nat.le_refl _) (threads_refs _ (by simp [ref])) hself (threads_tries (by intro p n e; cases e)) ?_
        intro c x' hx'
        have ht := hT _ .done c hj
        simp only [inUse, inHand, undecided] at ht
        have hcop : copies (setT j .done s) c = copies s c := rfl
        rw [hcop]
        refine Or.inl ⟨x', hx', ?_, ?_, Or.inl ⟨?_, Or.inl ?_⟩⟩ <;> (try simp only [setT]) <;> omega
      · cases h
    · -- got
      rename_i p c0 hj
      obtain ⟨s1, h1, rfl⟩ := Option.map_eq_some_iff.mp h
      unfold setCounter at h1
      split at h1
      · rename_i x hx
        cases h1
        have hlt := (List.getElem?_eq_some_iff.mp hx).1
        refine inv_of hi (by simp [setT]) (threads_refs _ (by simp [ref, setT]; exact hlt)) (by simpa [setT] using hself)
          (threads_tries (by intro p n e; cases e)) ?_
        intro c x' hx'
        have ht := hT _ (.counted p c0) c hj
        simp only [inUse, inHand, undecided] at ht
        simp only [setT] at hx' ⊢
        have hcop : ∀ a b cc, copies ⟨a, s.pools, b, cc⟩ c = copies s c := fun _ _ _ => rfl
        rw [hcop]
        by_cases hcc : c = c0
        · subst hcc
          rw [getElem?_set_self' hx] at hx'
          cases hx'
          simp only [if_true] at ht
          exact Or.inl ⟨x, hx, by simp only; omega, by simp, Or.inl ⟨by simp only; omega, Or.inl (by simp only; omega)⟩⟩
        · rw [List.getElem?_set_ne (fun e => hcc e.symm)] at hx'
          simp only [if_neg hcc] at ht
          exact Or.inl ⟨x', hx', by omega, by omega, Or.inl ⟨by omega, Or.inl (by omega)⟩⟩
      · cases h1
    · -- counted
      rename_i p c0 hj
      split at h
      · rename_i x hx
        cases h
        have hlt := (List.getElem?_eq_some_iff.mp hx).1
        by_cases h20 : x.counter ≤ 20
        · rw [if_pos h20]
          refine inv_of hi (Nat.le_refl _) (threads_refs _ (by simp [ref]; exact hlt)) hself (threads_tries (by intro p n e; cases e)) ?_
          intro c x' hx'
          have ht := hT _ (.toPut p c0) c hj
          simp only [inUse, inHand, undecided] at ht
          simp only [setT] at hx' ⊢
          have hcop : ∀ cc, copies ⟨s.conns, s.pools, s.current, cc⟩ c = copies s c := fun _ => rfl
          rw [hcop]
          by_cases hcc : c = c0
          · subst hcc
            rw [hx] at hx'
            cases hx'
            simp only [if_true] at ht
            exact Or.inl ⟨x, hx, by omega, by omega, Or.inl ⟨by omega, Or.inr h20⟩⟩
          · simp only [if_neg hcc] at ht
            exact Or.inl ⟨x', hx', by omega, by omega, Or.inl ⟨by omega, Or.inl (by omega)⟩⟩
        · rw [if_neg h20]
          refine inv_of hi (Nat.le_refl _) (threads_refs _ (by simp [ref]; exact hlt)) hself (threads_tries (by intro p n e; cases e)) ?_
          intro c x' hx'
          have ht := hT _ (.holding c0) c hj
          simp only [inUse, inHand, undecided] at ht
          simp only [setT] at hx' ⊢
          have hcop : ∀ cc, copies ⟨s.conns, s.pools, s.current, cc⟩ c = copies s c := fun _ => rfl
          rw [hcop]
          by_cases hcc : c = c0
          · simp only [if_pos hcc] at ht
            exact Or.inl ⟨x', hx', by omega, by omega, Or.inr ⟨by omega, by omega⟩⟩
          · simp only [if_neg hcc] at ht
            exact Or.inl ⟨x', hx', by omega, by omega, Or.inl ⟨by omega, Or.inl (by omega)⟩⟩
      · cases h
    · -- toPut
      rename_i p c0 hj
      obtain ⟨s1, h1, rfl⟩ := Option.map_eq_some_iff.mp h
      obtain ⟨q, hq, rfl⟩ := poolPut_some h1
      have hlt := hi.refs _ (List.mem_of_getElem? hj) c0 rfl
      refine inv_of hi (Nat.le_refl _) (threads_refs _ (by simp [ref, setT]; exact hlt)) ?_ (threads_tries (by intro p n e; cases e)) ?_
      · intro q2 hq2 c hc
        rcases mem_set_cases hq2 with rfl | hq2
        · rcases List.mem_append.mp hc with hc | hc
          · exact Or.inl ⟨q, List.mem_of_getElem? hq, hc⟩
          · rw [List.mem_singleton.mp hc]; exact Or.inr hlt
        · exact Or.inl ⟨q2, hq2, hc⟩
      · intro c x' hx'
        have ht := hT _ (.holding c0) c hj
        simp only [inUse, inHand, undecided] at ht
        simp only [setT] at hx' ⊢
        rw [copies_put hq]
        by_cases hcc : c = c0
        · simp only [if_pos hcc] at ht ⊢
          exact Or.inl ⟨x', hx', by omega, by omega, Or.inl ⟨by omega, Or.inl (by omega)⟩⟩
        · simp only [if_neg hcc] at ht ⊢
          exact Or.inl ⟨x', hx', by omega, by omega, Or.inl ⟨by omega, Or.inl (by omega)⟩⟩
    · -- holding
      rename_i c0 hj
      have hlt := hi.refs _ (List.mem_of_getElem? hj) c0 rfl
      obtain ⟨ps, cur, p, hp, h1, h2⟩ := provider_spec s
      rw [hp] at h
      cases h
      refine inv_of hi (Nat.le_refl _) (threads_refs _ (by simp [ref, setT]; exact hlt)) (fun q hq c hc => Or.inl (h1 q hq c hc))
        (threads_tries (by intro p n e; cases e)) ?_
      intro c x' hx'
      have ht := hT _ (.putting p c0) c hj
      simp only [setT]
      rw [h2]
      simp only [inUse, inHand, undecided] at ht
      refine Or.inl ⟨x', hx', by omega, by omega, Or.inl ⟨by omega, Or.inl (by omega)⟩⟩
    · -- putting
      rename_i p c0 hj
      obtain ⟨s1, h1, rfl⟩ := Option.map_eq_some_iff.mp h
      unfold setCounter at h1
      split at h1
      · rename_i x hx
        cases h1
        have hlt := (List.getElem?_eq_some_iff.mp hx).1
        refine inv_of hi (by simp [setT]) (threads_refs _ (by simp [ref, setT]; exact hlt)) (by simpa [setT] using hself)
          (threads_tries (by intro p n e; cases e)) ?_
        intro c x' hx'
        have ht := hT _ (.returning p c0) c hj
        simp only [inUse, inHand, undecided] at ht
        simp only [setT] at hx' ⊢
        have hcop : ∀ a b cc, copies ⟨a, s.pools, b, cc⟩ c = copies s c := fun _ _ _ => rfl
        rw [hcop]
        by_cases hcc : c = c0
        · subst hcc
          rw [getElem?_set_self' hx] at hx'
          cases hx'
          simp only [if_true] at ht
          exact Or.inl ⟨x, hx, by simp only; omega, by simp, Or.inl ⟨by simp only; omega, Or.inl (by simp only; omega)⟩⟩
        · rw [List.getElem?_set_ne (fun e => hcc e.symm)] at hx'
          simp only [if_neg hcc] at ht
          exact Or.inl ⟨x', hx', by omega, by omega, Or.inl ⟨by omega, Or.inl (by omega)⟩⟩
      · cases h1
    · -- returning
      rename_i p c0 hj
      have hlt := hi.refs _ (List.mem_of_getElem? hj) c0 rfl
      split at h
      · rename_i x hx
        split at h
        · obtain ⟨s1, h1, rfl⟩ := Option.map_eq_some_iff.mp h
          obtain ⟨q, hq, rfl⟩ := poolPut_some h1
          simp only at hq
          refine inv_of hi (by simp [setT]) (threads_refs _ (by simp [ref])) ?_ (threads_tries (by intro p n e; cases e)) ?_
          · intro q2 hq2 c hc
            simp only [setT, List.length_set]
            rcases mem_set_cases hq2 with rfl | hq2
            · rcases List.mem_append.mp hc with hc | hc
              · exact Or.inl ⟨q, List.mem_of_getElem? hq, hc⟩
              · rw [List.mem_singleton.mp hc]; exact Or.inr hlt
            · exact Or.inl ⟨q2, hq2, hc⟩
          · intro c x' hx'
            have ht := hT _ .done c hj
            simp only [inUse, inHand, undecided] at ht
            simp only [setT] at hx' ⊢
            rw [copies_put hq]
            by_cases hcc : c = c0
            · subst hcc
              rw [getElem?_set_self' hx] at hx'
              cases hx'
              simp only [if_true]
              exact Or.inl ⟨x, hx, by (try simp only); omega, by simp, Or.inl ⟨by (try simp only); omega, Or.inl (by (try simp only); omega)⟩⟩
            · rw [List.getElem?_set_ne (fun e => hcc e.symm)] at hx'
              rw [if_neg hcc]
              exact Or.inl ⟨x', hx', by omega, by omega, Or.inl ⟨by omega, Or.inl (by omega)⟩⟩
        · cases h
          refine inv_of hi (by simp [setT, shut_length]) (threads_refs _ (by simp [ref])) (by simpa [setT, shut_length] using hself)
            (threads_tries (by intro p n e; cases e)) ?_
          intro c x' hx'
          have ht := hT _ .done c hj
          simp only [inUse, inHand, undecided] at ht
          simp only [setT] at hx' ⊢
          have hcop : ∀ a b cc, copies ⟨a, s.pools, b, cc⟩ c = copies s c := fun _ _ _ => rfl
          rw [hcop]
          obtain ⟨x2, hx2, e1, e2⟩ := shut_get hx'
          exact Or.inl ⟨x2, hx2, by omega, by omega, Or.inl ⟨by omega, Or.inl (by omega)⟩⟩
      · cases h
    · -- evicting
      rename_i p hj
      split at h
      · rename_i q hq
        cases h
        have hcop : ∀ cc c, copies ⟨s.conns, s.pools.set p { q with closed := true }, s.current, cc⟩ c = copies s c := by
          intro cc c
          have h1 := total_set (fun q : CPool => q.content.count c) s.pools p q { q with closed := true } hq
          simp only [copies] at h1 ⊢
          omega
        refine inv_of hi (Nat.le_refl _) (threads_refs _ (by simp [ref])) ?_ (threads_tries (by intro p n e; cases e)) ?_
        · intro q2 hq2 c hc
          rcases mem_set_cases hq2 with rfl | hq2
          · exact Or.inl ⟨q, List.mem_of_getElem? hq, hc⟩
          · exact Or.inl ⟨q2, hq2, hc⟩
        · intro c x' hx'
          have ht := hT _ (.closing p 1000) c hj
          simp only [inUse, inHand, undecided] at ht
          simp only [setT]
          rw [hcop]
          exact Or.inl ⟨x', hx', by omega, by omega, Or.inl ⟨by omega, Or.inl (by omega)⟩⟩
      · cases h
    · -- closing
      rename_i p hj
      cases h
      refine inv_of hi (Nat.le_refl _) (threads_refs _ (by simp [ref])) hself (threads_tries (by intro p n e; cases e)) ?_
      intro c x' hx'
      have ht := hT _ .done c hj
      simp only [inUse, inHand, undecided] at ht
      have hcop : copies (setT j .done s) c = copies s c := rfl
      rw [hcop]
      refine Or.inl ⟨x', hx', ?_, ?_, Or.inl ⟨?_, Or.inl ?_⟩⟩ <;> (try simp only [setT]) <;> omega
    · cases h
  | close j k =>
    simp only [step] at h
    split at h
    · rename_i p left hj
      split at h
      · cases h
      · rename_i q hq
        have hT : ∀ (c : Nat), total (inUse c) (s.threads.set j (.closing p left)) = total (inUse c) s.threads ∧
            total (inHand c) (s.threads.set j (.closing p left)) = total (inHand c) s.threads ∧
            total (undecided c) (s.threads.set j (.closing p left)) = total (undecided c) s.threads := by
          intro c
          exact ⟨total_set (inUse c) _ j _ (.closing p left) hj, total_set (inHand c) _ j _ (.closing p left) hj,
            total_set (undecided c) _ j _ (.closing p left) hj⟩
        have key : ∀ (conns1 conns2 : List Conn) (q1 : CPool) (r : Option Nat), fetch s.conns q k = some (conns1, q1, r) →
            conns2.length = conns1.length →
            (∀ (c : Nat) (x' : Conn), conns2[c]? = some x' → ∃ x : Conn, conns1[c]? = some x ∧ x'.counter = x.counter ∧ x'.returned = x.returned) →
            Inv (setT j (.closing p left) { s with conns := conns2, pools := s.pools.set p q1 }) := by
          intro conns1 conns2 q1 r hf hlen hget
          obtain ⟨f1, f2, f3, f4⟩ := fetch_sums hi hq hf (s.threads.set j (.closing p left)) s.current
          refine inv_of hi (by simp only [setT]; omega) (threads_refs _ (by simp [ref])) (fun q hq c hc => Or.inl (f3 q hq c hc))
            (threads_tries (by intro p n e; cases e)) ?_
          intro c x' hx'
          simp only [setT]
          rw [(hT c).1, (hT c).2.1, (hT c).2.2]
          obtain ⟨x2, hx2, e1, e2⟩ := hget c x' hx'
          have hcop : copies ⟨conns2, s.pools.set p q1, s.current, s.threads.set j (.closing p left)⟩ c =
            copies ⟨conns1, s.pools.set p q1, s.current, s.threads.set j (.closing p left)⟩ c := rfl
          rw [hcop]
          rcases f4 c x2 hx2 with ⟨g1, g2⟩ | ⟨g1, g2, g4, g3⟩
          · refine Or.inl ⟨x2, g1, by omega, by omega, Or.inl ⟨by omega, Or.inl (by omega)⟩⟩
          · have hz := fresh_zero hi c (by omega)
            have : x2.counter = 0 := by rw [g4]
            refine Or.inr ⟨by omega, by omega, by omega, by omega⟩
        split at h
        · cases h
        · rename_i conns1 q1 c1 hf
          cases h
          exact key conns1 _ q1 _ hf (shut_length _ _) (fun c x' hx' => shut_get hx')
        · rename_i conns1 q1 hf
          cases h
          exact key conns1 _ q1 _ hf rfl (fun c x' hx' => ⟨x', hx', rfl, rfl⟩)
    · cases h
  | net c0 st =>
    simp only [step] at h
    split at h
    · rename_i x hx
      split at h
      · cases h
      · cases h
        refine inv_of hi (by simp) (fun t ht => Or.inl ht) (fun q hq c hc => Or.inl ⟨q, hq, hc⟩) (fun p n ht => Or.inl ht) ?_
        intro c x' hx'
        have hcop : ∀ a, copies ⟨a, s.pools, s.current, s.threads⟩ c = copies s c := fun _ => rfl
        rw [hcop]
        simp only at hx'
        by_cases hcc : c = c0
        · subst hcc
          rw [getElem?_set_self' hx] at hx'
          cases hx'
          exact Or.inl ⟨x, hx, rfl, by simp, Or.inl ⟨by simp, Or.inl (by simp)⟩⟩
        · rw [List.getElem?_set_ne (fun e => hcc e.symm)] at hx'
          exact Or.inl ⟨x', hx', rfl, by simp, Or.inl ⟨by simp, Or.inl (by simp)⟩⟩
    · cases h
  | drop p i =>
    simp only [step] at h
    split at h
    · rename_i q hq
      cases h
      refine inv_of hi (Nat.le_refl _) (fun t ht => Or.inl ht) ?_ (fun p n ht => Or.inl ht) ?_
      · intro q2 hq2 c hc
        rcases mem_set_cases hq2 with rfl | hq2
        · exact Or.inl ⟨q, List.mem_of_getElem? hq, List.mem_of_mem_eraseIdx hc⟩
        · exact Or.inl ⟨q2, hq2, hc⟩
      · intro c x' hx'
        have h1 := total_set (fun q : CPool => q.content.count c) s.pools p q { q with content := q.content.eraseIdx i } hq
        have h2 := count_eraseIdx_le q.content i c
        simp only at h1
        refine Or.inl ⟨x', hx', rfl, Nat.le_refl _, Or.inl ⟨?_, Or.inl (by simp)⟩⟩
        simp only [copies]
        omega
    · cases h
  | evict notify =>
    simp only [step] at h
    split at h
    · rename_i p hp
      cases h
      have ht : ∀ t ∈ (if notify = true then [T.evicting p] else []), t = T.evicting p := by
        intro t ht; split at ht <;> simp at ht; exact ht
      have hz : ∀ w : T → Nat, w (.evicting p) = 0 → total w (if notify = true then [T.evicting p] else []) = 0 := by
        intro w hw; split <;> simp [total, hw]
      refine inv_of hi (Nat.le_refl _) ?_ (fun q hq c hc => Or.inl ⟨q, hq, hc⟩) ?_ ?_
      · intro t h
        rcases List.mem_append.mp h with h | h
        · exact Or.inl h
        · rw [ht t h]; exact Or.inr (by simp [ref])
      · intro p n h
        rcases List.mem_append.mp h with h | h
        · exact Or.inl h
        · have := ht _ h; cases this
      · intro c x' hx'
        have hcop : ∀ cur cc, copies ⟨s.conns, s.pools, cur, cc⟩ c = copies s c := fun _ _ => rfl
        simp only [total_append, hz (inUse c) rfl, hz (inHand c) rfl, hz (undecided c) rfl]
        rw [hcop]
        exact Or.inl ⟨x', hx', by omega, by omega, Or.inl ⟨by omega, Or.inl (by omega)⟩⟩
    · cases h

theorem reach_inv {s : PState} (h : Reach s) : Inv s := by
  induction h with
  | init =>
    refine ⟨by simp [init], by simp [init], by simp [init], by simp [init], by simp [init]⟩
  | step l _ h ih => exact step_inv ih h

end Pool
end Veri
