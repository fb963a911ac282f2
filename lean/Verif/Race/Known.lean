import Verif.Node.Props
/-
C120: addresses learned by overlapping joins.  node/nodeservice.go:204-217 looks through `n.KnownIds` and appends to it without a lock;
node/node.go:66, 322-329 starts `JoinToPeers` every minute without waiting for the previous one, so that these steps overlap.
-/
set_option autoImplicit false
namespace Veri
namespace Known

/-- A slice header: which array, and how many elements. -/
structure Hdr where
  arr : Nat
  len : Nat
  deriving DecidableEq, Repr

/-- Where a goroutine is that has received a reply to a join request. -/
inductive Pc where
  /-- node/nodeservice.go:206 -/
  | start
  /-- node/nodeservice.go:208: the header has been read, the first `k` elements are others -/
  | scan (h : Hdr) (k : Nat)
  /-- node/nodeservice.go:214: not found -/
  | absent
  /-- node/nodeservice.go:215: the header has been read again -/
  | append (h : Hdr)
  /-- the element is written, the header not yet -/
  | written (h : Hdr)
  | done
  deriving DecidableEq, Repr

structure Thread where
  id : String
  pc : Pc
  deriving DecidableEq, Repr

/-- The arrays allocated so far (the length of each is the capacity of the slices on it), `n.KnownIds`, and the goroutines. -/
structure State where
  arrays : List (List String)
  hdr : Hdr
  threads : List Thread
  deriving DecidableEq, Repr

inductive Label where
  /-- a reply comes with this address -/
  | reply (id : String)
  /-- a step of goroutine `j`; `cap` is the capacity that `append` chooses if it allocates -/
  | act (j : Nat) (cap : Nat)

/-- A nil slice (node/node.go:55: `KnownIds` is not set). -/
def start : State := ⟨[[]], ⟨0, 0⟩, []⟩

/-- The step of one goroutine on the arrays and the header.  Simplifications: a header and an element (a string) are read and written
at once, and so is the copy to a new array.  `none`: no such step. -/
def move (arrays : List (List String)) (hdr : Hdr) (id : String) (cap : Nat) : Pc → Option (List (List String) × Hdr × Pc)
  | .start => some (arrays, hdr, .scan hdr 0)
  | .scan h k =>
    if k < h.len then
      match (arrays[h.arr]?).bind fun a => a[k]? with
      | some y => some (arrays, hdr, if y = id then .done else .scan h (k + 1))
      | none => none
    else some (arrays, hdr, .absent)
  | .absent => some (arrays, hdr, .append hdr)
  | .append h =>
    match arrays[h.arr]? with
    | some a =>
      if h.len < a.length then some (arrays.set h.arr (a.set h.len id), hdr, .written ⟨h.arr, h.len + 1⟩)
      else if h.len < cap then
        some (arrays ++ [a.take h.len ++ id :: List.replicate (cap - h.len - 1) ""], hdr, .written ⟨arrays.length, h.len + 1⟩)
      else none
    | none => none
  | .written h => some (arrays, h, .done)
  | .done => none

def step (s : State) : Label → Option State
  | .reply id => some { s with threads := s.threads ++ [⟨id, .start⟩] }
  | .act j cap =>
    match s.threads[j]? with
    | some t =>
      match move s.arrays s.hdr t.id cap t.pc with
      | some (arrays, hdr, pc) => some ⟨arrays, hdr, s.threads.set j ⟨t.id, pc⟩⟩
      | none => none
    | none => none

def exec : State → List Label → Option State
  | s, [] => some s
  | s, l :: ls => (step s l).bind fun t => exec t ls

/-- The elements of `n.KnownIds`, which node/node.go:165 announces. -/
def known (s : State) : List String := ((s.arrays[s.hdr.arr]?).getD []).take s.hdr.len

theorem exec_append : ∀ (l1 l2 : List Label) (s : State), exec s (l1 ++ l2) = (exec s l1).bind fun t => exec t l2
  | [], _, _ => rfl
  | l :: l1, l2, s => by
    simp only [List.cons_append, exec]
    cases step s l with
    | none => rfl
    | some t => exact exec_append l1 l2 t

/-! ### Invariant -/

/-- A slice whose elements are all present and satisfy `P`. -/
def Ref (P : String → Prop) (arrays : List (List String)) (h : Hdr) : Prop :=
  ∃ a, arrays[h.arr]? = some a ∧ h.len ≤ a.length ∧ ∀ x ∈ a.take h.len, P x

def Pc.hdr : Pc → Option Hdr
  | .scan h _ => some h
  | .append h => some h
  | .written h => some h
  | _ => none

structure Inv (P : String → Prop) (s : State) : Prop where
  hdr : Ref P s.arrays s.hdr
  threads : ∀ t ∈ s.threads, P t.id ∧ ∀ h, t.pc.hdr = some h → Ref P s.arrays h

theorem ref_set {P : String → Prop} {arrays : List (List String)} {j n : Nat} {a : List String} {id : String} (ha : arrays[j]? = some a)
    (hid : P id) {h : Hdr} (hr : Ref P arrays h) : Ref P (arrays.set j (a.set n id)) h := by
  obtain ⟨b, hb, hl, hp⟩ := hr
  by_cases hj : h.arr = j
  · subst hj
    rw [ha] at hb; cases hb
    obtain ⟨hlt, _⟩ := List.getElem?_eq_some_iff.1 ha
    refine ⟨a.set n id, List.getElem?_set_self hlt, by simpa using hl, ?_⟩
    intro x hx
    obtain ⟨k, hk⟩ := List.getElem?_of_mem hx
    rw [List.getElem?_take] at hk
    split at hk
    · rename_i hkl
      rw [List.getElem?_set] at hk
      split at hk
      · split at hk
        · cases hk; exact hid
        · cases hk
      · exact hp x (List.mem_of_getElem? (i := k) (by rw [List.getElem?_take, if_pos hkl]; exact hk))
    · cases hk
  · exact ⟨b, by rw [List.getElem?_set_ne (Ne.symm hj)]; exact hb, hl, hp⟩

theorem ref_grow {P : String → Prop} {arrays : List (List String)} {b : List String} {h : Hdr} (hr : Ref P arrays h) :
    Ref P (arrays ++ [b]) h := by
  obtain ⟨a, ha, hl, hp⟩ := hr
  obtain ⟨hlt, _⟩ := List.getElem?_eq_some_iff.1 ha
  exact ⟨a, by rw [List.getElem?_append_left hlt]; exact ha, hl, hp⟩

theorem take_set_self (a : List String) (n : Nat) (x : String) (h : n < a.length) : (a.set n x).take (n + 1) = a.take n ++ [x] := by
  rw [List.take_add_one, List.getElem?_set_self h, List.take_set_of_le (Nat.le_refl _)]
  rfl

theorem mem_set {α : Type} {l : List α} {j : Nat} {x y : α} (h : x ∈ l.set j y) : x = y ∨ x ∈ l :=
  (List.mem_or_eq_of_mem_set h).symm

theorem inv_step {P : String → Prop} {s s' : State} {l : Label} (hi : Inv P s) (hl : ∀ id, l = .reply id → P id)
    (h : step s l = some s') : Inv P s' := by
  cases l with
  | reply id =>
    simp only [step, Option.some.injEq] at h
    subst h
    refine ⟨hi.hdr, ?_⟩
    intro t ht
    rcases List.mem_append.1 ht with ht | ht
    · exact hi.threads t ht
    · rw [List.mem_singleton.1 ht]
      exact ⟨hl id rfl, nofun⟩
  | act j cap =>
    simp only [step] at h
    cases ht : s.threads[j]? with
    | none => rw [ht] at h; cases h
    | some t =>
      rw [ht] at h
      have htm := List.mem_of_getElem? ht
      obtain ⟨hid, href⟩ := hi.threads t htm
      obtain ⟨id, pc⟩ := t
      simp only at h hid href
      have done : ∀ {arrays : List (List String)} {hdr : Hdr} {pc' : Pc}, Ref P arrays hdr → (∀ h, Ref P s.arrays h → Ref P arrays h) →
          (∀ h, pc'.hdr = some h → Ref P arrays h) → Inv P ⟨arrays, hdr, s.threads.set j ⟨id, pc'⟩⟩ := by
        intro arrays hdr pc' h1 h2 h3
        refine ⟨h1, ?_⟩
        intro t ht
        rcases mem_set ht with rfl | ht
        · exact ⟨hid, h3⟩
        · exact ⟨(hi.threads t ht).1, fun h hh => h2 h ((hi.threads t ht).2 h hh)⟩
      cases pc with
      | start =>
        simp only [move, Option.some.injEq] at h; subst h
        exact done hi.hdr (fun _ h => h) (fun h hh => by cases hh; exact hi.hdr)
      | scan hd k =>
        simp only [move] at h
        split at h
        · rename_i hm
          split at hm
          · split at hm
            · simp only [Option.some.injEq, Prod.mk.injEq] at hm h
              obtain ⟨rfl, rfl, rfl⟩ := hm
              subst h
              refine done hi.hdr (fun _ h => h) (fun h hh => ?_)
              split at hh
              · cases hh
              · cases hh; exact href _ rfl
            · cases hm
          · simp only [Option.some.injEq, Prod.mk.injEq] at hm h
            obtain ⟨rfl, rfl, rfl⟩ := hm
            subst h
            exact done hi.hdr (fun _ h => h) nofun
        · cases h
      | absent =>
        simp only [move, Option.some.injEq] at h; subst h
        exact done hi.hdr (fun _ h => h) (fun h hh => by cases hh; exact hi.hdr)
      | append hd =>
        obtain ⟨a, ha, hle, hp⟩ := href _ rfl
        simp only [move, ha] at h
        split at h
        · rename_i hm
          split at hm
          · rename_i hlt
            simp only [Option.some.injEq, Prod.mk.injEq] at hm h
            obtain ⟨rfl, rfl, rfl⟩ := hm
            subst h
            refine done (ref_set ha hid hi.hdr) (fun _ h => ref_set ha hid h) (fun h hh => ?_)
            cases hh
            obtain ⟨hl', _⟩ := List.getElem?_eq_some_iff.1 ha
            refine ⟨_, List.getElem?_set_self hl', by rw [List.length_set]; exact hlt, ?_⟩
            intro x hx
            rw [take_set_self _ _ _ hlt] at hx
            rcases List.mem_append.1 hx with hx | hx
            · exact hp x hx
            · rw [List.mem_singleton.1 hx]; exact hid
          · split at hm
            · rename_i hcap
              simp only [Option.some.injEq, Prod.mk.injEq] at hm h
              obtain ⟨rfl, rfl, rfl⟩ := hm
              subst h
              refine done (ref_grow hi.hdr) (fun _ h => ref_grow h) (fun h hh => ?_)
              cases hh
              have hlen : (a.take hd.len).length = hd.len := by rw [List.length_take]; omega
              refine ⟨_, List.getElem?_concat_length, ?_, ?_⟩
              · simp only [List.length_append, hlen, List.length_cons]; omega
              intro x hx
              simp only at hx
              rw [List.take_append, hlen, List.take_of_length_le (by omega), show hd.len + 1 - hd.len = 1 by omega] at hx
              rcases List.mem_append.1 hx with hx | hx
              · exact hp x hx
              · simp only [List.take_succ_cons, List.take_zero, List.mem_singleton] at hx
                rw [hx]; exact hid
            · cases hm
        · cases h
      | written hd =>
        simp only [move, Option.some.injEq] at h; subst h
        exact done (href _ rfl) (fun _ h => h) nofun
      | done => simp [move] at h

theorem inv_exec {P : String → Prop} : ∀ (ls : List Label) {s s' : State}, Inv P s → (∀ id, Label.reply id ∈ ls → P id) →
    exec s ls = some s' → Inv P s'
  | [], s, s', hi, _, h => by simp only [exec, Option.some.injEq] at h; exact h ▸ hi
  | l :: ls, s, s', hi, hl, h => by
    simp only [exec] at h
    cases hs : step s l with
    | none => simp [hs] at h
    | some t =>
      rw [hs] at h
      exact inv_exec ls (inv_step hi (fun id he => hl id (he ▸ List.mem_cons_self)) hs) (fun id hm => hl id (List.mem_cons_of_mem _ hm)) h

theorem inv_start (P : String → Prop) : Inv P start := ⟨⟨[], rfl, Nat.le_refl _, by intro x hx; cases hx⟩, by intro t ht; cases ht⟩

theorem known_of {P : String → Prop} {s : State} (h : Ref P s.arrays s.hdr) : ∀ x ∈ known s, P x := by
  obtain ⟨a, ha, _, hp⟩ := h
  intro x hx
  unfold known at hx
  rw [ha] at hx
  exact hp x hx

/-! ### One goroutine without interference -/

/-- What the list is after an address has been learned. -/
def add (c : List String) (id : String) : List String := if id ∈ c then c else c ++ [id]

/-- How far goroutine `j` is, if the list was `c` when it began and no other goroutine has moved since. -/
def Alone (c : List String) (s : State) (id : String) : Pc → Prop
  | .start => known s = c
  | .scan h k => s.hdr = h ∧ known s = c ∧ k ≤ h.len ∧ id ∉ c.take k
  | .absent => known s = c ∧ id ∉ c
  | .append h => s.hdr = h ∧ known s = c ∧ id ∉ c
  | .written h => known s = c ∧ id ∉ c ∧ ((s.arrays[h.arr]?).getD []).take h.len = c ++ [id]
  | .done => known s = add c id

theorem alone_step {c : List String} {s s' : State} {j : Nat} {t : Thread} {l : Label} (hw : Ref (fun _ => True) s.arrays s.hdr)
    (ht : s.threads[j]? = some t) (ha : Alone c s t.id t.pc) (hl : (∃ id, l = .reply id) ∨ ∃ cap, l = .act j cap)
    (h : step s l = some s') : ∃ t', s'.threads[j]? = some t' ∧ t'.id = t.id ∧ Alone c s' t'.id t'.pc := by
  obtain ⟨hj, _⟩ := List.getElem?_eq_some_iff.1 ht
  rcases hl with ⟨id, rfl⟩ | ⟨cap, rfl⟩
  · simp only [step, Option.some.injEq] at h
    subst h
    refine ⟨t, by rw [List.getElem?_append_left hj]; exact ht, rfl, ?_⟩
    obtain ⟨id', pc⟩ := t
    cases pc <;> exact ha
  · simp only [step, ht] at h
    obtain ⟨id, pc⟩ := t
    obtain ⟨arr, harr, hle, -⟩ := hw
    have hk : known s = arr.take s.hdr.len := by unfold known; rw [harr]; rfl
    have hset : ∀ pc', (s.threads.set j ⟨id, pc'⟩)[j]? = some ⟨id, pc'⟩ := fun pc' => List.getElem?_set_self hj
    cases pc with
    | start =>
      simp only [move, Option.some.injEq] at h; subst h
      exact ⟨_, hset _, rfl, rfl, ha, Nat.zero_le _, by simp⟩
    | scan hd k =>
      obtain ⟨rfl, hc, hkl, hn⟩ := ha
      simp only [move] at h
      split at h
      · rename_i hm
        split at hm
        · rename_i hlt
          rw [harr] at hm
          split at hm
          · rename_i y hy
            simp only [Option.bind_some] at hy
            simp only [Option.some.injEq, Prod.mk.injEq] at hm h
            obtain ⟨rfl, rfl, rfl⟩ := hm
            subst h
            have hcy : c[k]? = some y := by rw [← hc, hk, List.getElem?_take, if_pos hlt]; exact hy
            refine ⟨_, hset _, rfl, ?_⟩
            by_cases hyx : y = id
            · simp only [hyx, if_true, Alone]
              subst hyx
              unfold add
              rw [if_pos (List.mem_of_getElem? hcy)]
              exact hc
            · simp only [hyx, if_false, Alone]
              refine ⟨trivial, hc, hlt, ?_⟩
              rw [List.take_add_one, hcy]
              intro hm
              rcases List.mem_append.1 hm with hm | hm
              · exact hn hm
              · simp only [Option.toList_some, List.mem_singleton] at hm
                exact hyx hm.symm
          · cases hm
        · rename_i hlt
          simp only [Option.some.injEq, Prod.mk.injEq] at hm h
          obtain ⟨rfl, rfl, rfl⟩ := hm
          subst h
          refine ⟨_, hset _, rfl, hc, ?_⟩
          rw [List.take_of_length_le] at hn
          · exact hn
          · rw [← hc, hk, List.length_take]; omega
      · cases h
    | absent =>
      simp only [move, Option.some.injEq] at h; subst h
      exact ⟨_, hset _, rfl, rfl, ha.1, ha.2⟩
    | append hd =>
      obtain ⟨rfl, hc, hn⟩ := ha
      simp only [move, harr] at h
      obtain ⟨harrlt, _⟩ := List.getElem?_eq_some_iff.1 harr
      split at h
      · rename_i hm
        split at hm
        · rename_i hlt
          simp only [Option.some.injEq, Prod.mk.injEq] at hm h
          obtain ⟨rfl, rfl, rfl⟩ := hm
          subst h
          refine ⟨_, hset _, rfl, ?_, hn, ?_⟩
          · unfold known
            rw [List.getElem?_set_self harrlt, Option.getD_some, List.take_set_of_le (Nat.le_refl _), ← hk]
            exact hc
          · simp only
            rw [List.getElem?_set_self harrlt, Option.getD_some, take_set_self _ _ _ hlt, ← hk, hc]
        · split at hm
          · simp only [Option.some.injEq, Prod.mk.injEq] at hm h
            obtain ⟨rfl, rfl, rfl⟩ := hm
            subst h
            refine ⟨_, hset _, rfl, ?_, hn, ?_⟩
            · unfold known
              rw [List.getElem?_append_left harrlt, harr]
              exact hk.symm.trans hc
            · simp only [List.getElem?_concat_length, Option.getD_some]
              have hlen : (arr.take s.hdr.len).length = s.hdr.len := by rw [List.length_take]; omega
              rw [List.take_append, hlen, List.take_of_length_le (by omega), show s.hdr.len + 1 - s.hdr.len = 1 by omega, ← hk, hc]
              rfl
          · cases hm
      · cases h
    | written hd =>
      simp only [move, Option.some.injEq] at h; subst h
      refine ⟨_, hset _, rfl, ?_⟩
      show known _ = _
      unfold add
      rw [if_neg ha.2.1]
      exact ha.2.2
    | done => simp [move] at h

/-- Replies may come, but only goroutine `j` moves. -/
def OnlyOf (j : Nat) (ls : List Label) : Prop := ∀ l ∈ ls, (∃ id, l = .reply id) ∨ ∃ cap, l = .act j cap

theorem alone_exec {c : List String} {j : Nat} : ∀ (ls : List Label) {s s' : State} {t : Thread}, Inv (fun _ => True) s →
    s.threads[j]? = some t → Alone c s t.id t.pc → OnlyOf j ls → exec s ls = some s' →
    ∃ t', s'.threads[j]? = some t' ∧ t'.id = t.id ∧ Alone c s' t'.id t'.pc
  | [], s, s', t, _, ht, ha, _, h => by
    simp only [exec, Option.some.injEq] at h
    subst h
    exact ⟨t, ht, rfl, ha⟩
  | l :: ls, s, s', t, hi, ht, ha, hl, h => by
    simp only [exec] at h
    cases hs : step s l with
    | none => simp [hs] at h
    | some u =>
      rw [hs] at h
      obtain ⟨t1, h1, h2, h3⟩ := alone_step hi.hdr ht ha (hl l List.mem_cons_self) hs
      obtain ⟨t2, h4, h5, h6⟩ := alone_exec ls (inv_step hi (fun _ _ => trivial) hs) h1 h3 (fun l hm => hl l (List.mem_cons_of_mem _ hm)) h
      exact ⟨t2, h4, h5.trans h2, h6⟩

/-! ### Progress -/

/-- How many steps are left at most. -/
def left (s : State) : Pc → Nat
  | .start => s.hdr.len + 5
  | .scan h k => h.len - k + 4
  | .absent => 3
  | .append _ => 2
  | .written _ => 1
  | .done => 0

theorem progress {P : String → Prop} {s : State} (hi : Inv P s) {j : Nat} {t : Thread} (ht : s.threads[j]? = some t) (hp : t.pc ≠ .done)
    (cap : Nat) (hcap : ∀ h, t.pc.hdr = some h → h.len < cap) :
    ∃ arrays hdr pc, step s (.act j cap) = some ⟨arrays, hdr, s.threads.set j ⟨t.id, pc⟩⟩ ∧ left ⟨arrays, hdr, s.threads.set j ⟨t.id, pc⟩⟩ pc < left s t.pc := by
  have href := (hi.threads t (List.mem_of_getElem? ht)).2
  obtain ⟨id, pc⟩ := t
  simp only [step, ht]
  cases pc with
  | start => exact ⟨_, _, _, rfl, by simp [left]⟩
  | scan h k =>
    obtain ⟨a, ha, hl, -⟩ := href h rfl
    by_cases hk : k < h.len
    · obtain ⟨y, hy⟩ : ∃ y, a[k]? = some y := ⟨_, List.getElem?_eq_getElem (by omega)⟩
      have hm : move s.arrays s.hdr id cap (.scan h k) = some (s.arrays, s.hdr, if y = id then .done else .scan h (k + 1)) := by
        simp only [move, hk, if_true, ha, Option.bind_some, hy]
      refine ⟨_, _, _, by rw [hm], ?_⟩
      split
      · simp [left]
      · simp only [left]; omega
    · have hm : move s.arrays s.hdr id cap (.scan h k) = some (s.arrays, s.hdr, .absent) := by simp only [move, hk, if_false]
      exact ⟨_, _, _, by rw [hm], by simp [left]⟩
  | absent => exact ⟨_, _, _, rfl, by simp [left]⟩
  | append h =>
    obtain ⟨a, ha, hl, -⟩ := href h rfl
    by_cases hk : h.len < a.length
    · exact ⟨_, _, _, by simp only [move, ha, hk, if_true]; rfl, by simp [left]⟩
    · have := hcap h rfl
      exact ⟨_, _, _, by simp only [move, ha, hk, if_false, this, if_true]; rfl, by simp [left]⟩
  | written h => exact ⟨_, _, _, rfl, by simp [left]⟩
  | done => exact absurd rfl hp

/-- A goroutine that is left alone ends. -/
theorem ends {P : String → Prop} : ∀ (n : Nat) {s : State} {j : Nat} {t : Thread}, Inv P s → s.threads[j]? = some t → left s t.pc ≤ n →
    ∃ (caps : List Nat) (s' : State), exec s (caps.map (Label.act j)) = some s' ∧ s'.threads = s.threads.set j ⟨t.id, .done⟩
  | 0, s, j, t, hi, ht, hn => by
    have hd : t = ⟨t.id, .done⟩ := by
      obtain ⟨id, pc⟩ := t
      cases pc <;> simp [left] at hn ⊢
    obtain ⟨hj, he⟩ := List.getElem?_eq_some_iff.1 ht
    refine ⟨[], s, rfl, ?_⟩
    rw [← hd, ← he, List.set_getElem_self]
  | n + 1, s, j, t, hi, ht, hn => by
    by_cases hp : t.pc = .done
    · obtain ⟨hj, he⟩ := List.getElem?_eq_some_iff.1 ht
      refine ⟨[], s, rfl, ?_⟩
      rw [← hp, ← he, List.set_getElem_self]
    · obtain ⟨cap, hcap⟩ : ∃ cap, ∀ h, t.pc.hdr = some h → h.len < cap := by
        cases hh : t.pc.hdr with
        | none => exact ⟨0, nofun⟩
        | some h => exact ⟨h.len + 1, fun h' e => by cases e; omega⟩
      obtain ⟨arrays, hdr, pc, hs, hl⟩ := progress hi ht hp cap hcap
      obtain ⟨hj, _⟩ := List.getElem?_eq_some_iff.1 ht
      have hi' := inv_step hi (fun id he => by cases he) hs
      obtain ⟨caps, s', he, hth⟩ := ends n hi' (j := j) (t := ⟨t.id, pc⟩) (List.getElem?_set_self hj) (by simp only; omega)
      exact ⟨cap :: caps, s', by simp only [List.map_cons, exec, hs, Option.bind_some]; exact he, by rw [hth]; simp⟩

theorem onlyOf_map (j : Nat) (caps : List Nat) : OnlyOf j (caps.map (Label.act j)) := by
  intro l hl
  obtain ⟨c, _, rfl⟩ := List.mem_map.1 hl
  exact .inr ⟨c, rfl⟩

/-- The empty array of the beginning stays empty. -/
theorem first_step {s s' : State} {l : Label} (hf : s.arrays[0]? = some []) (h : step s l = some s') : s'.arrays[0]? = some [] := by
  cases l with
  | reply id => simp only [step, Option.some.injEq] at h; subst h; exact hf
  | act j cap =>
    simp only [step] at h
    cases ht : s.threads[j]? with
    | none => rw [ht] at h; cases h
    | some t =>
      rw [ht] at h
      obtain ⟨id, pc⟩ := t
      simp only at h
      cases hm : move s.arrays s.hdr id cap pc with
      | none => rw [hm] at h; cases h
      | some r =>
        obtain ⟨arrays, hdr, pc'⟩ := r
        rw [hm] at h
        simp only [Option.some.injEq] at h
        subst h
        show arrays[0]? = some []
        cases pc with
        | append hd =>
          simp only [move] at hm
          split at hm
          · rename_i a ha
            split at hm
            · rename_i hlt
              cases hm
              by_cases h0 : hd.arr = 0
              · rw [h0, hf] at ha; cases ha; simp at hlt
              · rw [List.getElem?_set_ne h0]; exact hf
            · split at hm
              · cases hm
                obtain ⟨hlt, _⟩ := List.getElem?_eq_some_iff.1 hf
                rw [List.getElem?_append_left hlt]; exact hf
              · cases hm
          · cases hm
        | scan hd k =>
          simp only [move] at hm
          split at hm
          · split at hm
            · cases hm; exact hf
            · cases hm
          · cases hm; exact hf
        | done => simp [move] at hm
        | _ => simp only [move, Option.some.injEq, Prod.mk.injEq] at hm; rw [← hm.1]; exact hf

theorem first_exec : ∀ (ls : List Label) {s s' : State}, s.arrays[0]? = some [] → exec s ls = some s' → s'.arrays[0]? = some []
  | [], s, s', hf, h => by simp only [exec, Option.some.injEq] at h; exact h ▸ hf
  | l :: ls, s, s', hf, h => by
    simp only [exec] at h
    cases hs : step s l with
    | none => simp [hs] at h
    | some t => rw [hs] at h; exact first_exec ls (first_step hf hs) h

/-- One goroutine after the other, each for a new address. -/
theorem learn_all : ∀ (xs : List String) {s : State}, Inv (fun _ => True) s → xs.Nodup → (∀ x ∈ xs, x ∉ known s) →
    ∃ ls s', exec s ls = some s' ∧ known s' = known s ++ xs ∧ s'.threads = s.threads ++ xs.map fun x => ⟨x, .done⟩
  | [], s, _, _, _ => ⟨[], s, rfl, by simp, by simp⟩
  | x :: xs, s, hi, hnd, hx => by
    let s1 : State := { s with threads := s.threads ++ [⟨x, .start⟩] }
    have h1 : step s (.reply x) = some s1 := rfl
    have hi1 := inv_step hi (fun _ _ => trivial) h1
    have ht1 : s1.threads[s.threads.length]? = some ⟨x, .start⟩ := List.getElem?_concat_length
    obtain ⟨caps, s2, h2, ht2⟩ := ends _ hi1 ht1 (Nat.le_refl _)
    obtain ⟨t', g1, g2, g3⟩ := alone_exec (c := known s) _ hi1 ht1 rfl (onlyOf_map _ caps) h2
    have hlt : s.threads.length < s1.threads.length := by simp [s1]
    rw [ht2, List.getElem?_set_self hlt] at g1
    cases g1
    have hk : known s2 = known s ++ [x] := by
      have : known s2 = add (known s) x := g3
      rw [this]; unfold add
      rw [if_neg (hx x List.mem_cons_self)]
    have ht2' : s2.threads = s.threads ++ [⟨x, .done⟩] := by
      rw [ht2]; simp [s1]
    have hi2 := inv_exec _ hi1 (fun _ _ => trivial) h2
    rw [List.nodup_cons] at hnd
    obtain ⟨ls, s3, h3, k3, t3⟩ := learn_all xs hi2 hnd.2 (by
      intro y hy hm
      rw [hk] at hm
      rcases List.mem_append.1 hm with hm | hm
      · exact hx y (List.mem_cons_of_mem _ hy) hm
      · rw [List.mem_singleton.1 hm] at hy; exact hnd.1 hy)
    refine ⟨.reply x :: (caps.map (Label.act s.threads.length) ++ ls), s3, ?_, by rw [k3, hk]; simp, by rw [t3, ht2']; simp⟩
    simp only [exec, h1, Option.bind_some, exec_append, h2]
    exact h3

/-- Replies one after the other: each is dealt with before the next one comes. -/
inductive InTurn (port : UInt32) : State → List String → State → Prop
  | nil (s : State) : InTurn port s [] s
  | empty {s s' : State} {as : List String} : InTurn port s as s' → InTurn port s ("" :: as) s'
  | cons {s s' s'' : State} {a : String} {as : List String} {caps : List Nat} : a ≠ "" →
      exec s (.reply (Net.feedback a port) :: caps.map (Label.act s.threads.length)) = some s' →
      s'.threads[s.threads.length]? = some ⟨Net.feedback a port, .done⟩ → InTurn port s' as s'' → InTurn port s (a :: as) s''

end Known
open Known

/-! ### C120 -/

/-- C120, full statement: an address that a node has learned from a reply is announced.  FALSE of the code. -/
def C120_learned_statement : Prop :=
  ∀ (ls : List Known.Label) (s : Known.State), Known.exec Known.start ls = some s → ∀ t ∈ s.threads, t.pc = .done → t.id ∈ known s

/-- C120.  No reply makes a goroutine read outside of an array or wait, and all that is announced comes from a reply. -/
theorem C120_sound (ls : List Known.Label) (s : Known.State) (h : Known.exec Known.start ls = some s) :
    (∀ x ∈ known s, Known.Label.reply x ∈ ls) ∧
    ∀ (j : Nat) (t : Thread), s.threads[j]? = some t → t.pc ≠ .done → ∃ cap0, ∀ cap, cap0 ≤ cap → (Known.step s (.act j cap)).isSome = true := by
  have hi := inv_exec (P := fun x => Known.Label.reply x ∈ ls) ls (inv_start _) (fun _ h => h) h
  refine ⟨known_of hi.hdr, ?_⟩
  intro j t ht hp
  cases hh : t.pc.hdr with
  | none =>
    refine ⟨0, fun cap _ => ?_⟩
    obtain ⟨_, _, _, hs, _⟩ := progress hi ht hp cap (by rw [hh]; exact nofun)
    rw [hs]; rfl
  | some hd =>
    refine ⟨hd.len + 1, fun cap hc => ?_⟩
    obtain ⟨_, _, _, hs, _⟩ := progress hi ht hp cap (by rw [hh]; intro h e; cases e; omega)
    rw [hs]; rfl

/-- C120.  From any state: while no other goroutine moves, an address is added to the list if it is not there, and nothing is lost. -/
theorem C120_alone_partial (ls ls' : List Known.Label) (s s' : Known.State) (j : Nat) (id : String)
    (h : Known.exec Known.start ls = some s) (ht : s.threads[j]? = some ⟨id, .start⟩) (ho : OnlyOf j ls')
    (h' : Known.exec s ls' = some s') (hd : s'.threads[j]? = some ⟨id, .done⟩) :
    known s' = if id ∈ known s then known s else known s ++ [id] := by
  have hi := inv_exec (P := fun _ => True) ls (inv_start _) (fun _ _ => trivial) h
  obtain ⟨t', g1, _, g3⟩ := alone_exec (c := known s) ls' hi ht rfl ho h'
  rw [hd] at g1
  cases g1
  exact g3

/-- C120.  Replies dealt with in turn: the list is that of the sequential model (C60). -/
theorem C120_in_turn_partial (port : UInt32) (as : List String) (s : Known.State) (h : InTurn port Known.start as s)
    (adv sv : List String) (ix : DS.DL) : known s = (as.foldl Net.learn (Net.newNode port adv sv ix)).knownIds := by
  have key : ∀ (as : List String) (s s' : Known.State) (n : Net.Node), Known.Inv (fun _ => True) s → n.port = port → known s = n.knownIds →
      InTurn port s as s' → known s' = (as.foldl Net.learn n).knownIds := by
    intro as
    induction as with
    | nil => intro s s' n _ _ hk h; cases h; exact hk
    | cons a as ih =>
      intro s s' n hi hp hk h
      cases h with
      | empty h => exact ih s s' n hi hp hk h
      | @cons _ s1 _ _ _ caps ha he hd h =>
        have hi1 := inv_exec _ hi (fun _ _ => trivial) he
        have hl : Net.learn n a = if Net.feedback a port ∈ n.knownIds then n else { n with knownIds := n.knownIds ++ [Net.feedback a port] } := by
          unfold Net.learn
          rw [if_neg ha, hp]
        refine ih s1 s' _ hi1 ?_ ?_ h
        · rw [hl]; split <;> exact hp
        · simp only [Known.exec, Known.step, Option.bind_some] at he
          obtain ⟨t', g1, _, g3⟩ := alone_exec (c := known s) (j := s.threads.length) _
            (inv_step (l := .reply (Net.feedback a port)) hi (fun _ _ => trivial) rfl) (t := ⟨Net.feedback a port, .start⟩)
            List.getElem?_concat_length rfl (onlyOf_map _ caps) he
          rw [hd] at g1
          cases g1
          have g3 : known s1 = add (known s) (Net.feedback a port) := g3
          rw [g3, hl]
          unfold add
          rw [hk]
          split <;> rfl
  exact key as Known.start s _ (inv_start _) rfl rfl h

/-- C120.  The loss has no bound: any number of addresses may have been learned and announced, and after one more reply has been dealt
with, all of them are gone. -/
theorem C120_lost (xs : List String) (x : String) (hnd : xs.Nodup) : ∃ ls ls' s s', Known.exec Known.start ls = some s ∧
    known s = xs ∧ (∀ y ∈ xs, ⟨y, .done⟩ ∈ s.threads) ∧ Known.exec s ls' = some s' ∧ (∀ t ∈ s'.threads, t.pc = .done) ∧ known s' = [x] := by
  let l0 : List Known.Label := [.reply x, .act 0 0, .act 0 0, .act 0 0]
  let s0 : Known.State := ⟨[[]], ⟨0, 0⟩, [⟨x, .append ⟨0, 0⟩⟩]⟩
  have h0 : Known.exec Known.start l0 = some s0 := rfl
  have hi0 := inv_exec (P := fun _ => True) l0 (inv_start _) (fun _ _ => trivial) h0
  obtain ⟨ls, s, h1, hk, ht⟩ := learn_all xs hi0 hnd (by intro y _ hy; cases hy)
  have hf := first_exec ls (s := s0) rfl h1
  have ht0 : s.threads[0]? = some ⟨x, .append ⟨0, 0⟩⟩ := by rw [ht]; rfl
  let s1 : Known.State := ⟨s.arrays ++ [[x]], s.hdr, s.threads.set 0 ⟨x, .written ⟨s.arrays.length, 1⟩⟩⟩
  have e1 : Known.step s (.act 0 1) = some s1 := by
    simp only [Known.step, ht0, move, hf]
    rfl
  have hlt : 0 < s.threads.length := by rw [ht]; simp [s0]
  let s2 : Known.State := ⟨s.arrays ++ [[x]], ⟨s.arrays.length, 1⟩, (s.threads.set 0 ⟨x, .written ⟨s.arrays.length, 1⟩⟩).set 0 ⟨x, .done⟩⟩
  have e2 : Known.step s1 (.act 0 0) = some s2 := by
    have : s1.threads[0]? = some ⟨x, .written ⟨s.arrays.length, 1⟩⟩ := List.getElem?_set_self hlt
    simp only [Known.step, this, move]
    rfl
  refine ⟨l0 ++ ls, [.act 0 1, .act 0 0], s, s2, ?_, by rw [hk]; rfl, ?_, ?_, ?_, ?_⟩
  · rw [Known.exec_append, h0]; exact h1
  · intro y hy
    rw [ht]
    exact List.mem_append.2 (.inr (List.mem_map.2 ⟨y, hy, rfl⟩))
  · simp only [Known.exec, e1, e2, Option.bind_some]
  · intro t htm
    simp only [s2, ht, s0, List.singleton_append, List.set_cons_zero, List.mem_cons, List.mem_map] at htm
    rcases htm with rfl | ⟨y, _, rfl⟩ <;> rfl
  · simp [known, s2]

theorem C120_learned_fails : ¬ C120_learned_statement := by
  intro h
  have h6 : ∃ ls s, Known.exec Known.start ls = some s ∧ (⟨"a", .done⟩ : Thread) ∈ s.threads ∧ known s = ["b"] :=
    ⟨[.reply "a", .reply "b", .act 0 0, .act 0 0, .act 0 0, .act 1 0, .act 1 0, .act 1 0, .act 0 1, .act 0 0, .act 1 1, .act 1 0], _, rfl,
      by decide, by decide⟩
  obtain ⟨ls, s, h1, h2, h3⟩ := h6
  have := h ls s h1 _ h2 rfl
  rw [h3] at this
  exact absurd this (by decide)

/-- C120 is not empty: two replies in turn, the second of which finds its address. -/
theorem C120_example : InTurn 7000 Known.start ["10.0.0.1", "10.0.0.1"] ⟨[[], ["10.0.0.1:7000"]], ⟨1, 1⟩,
    [⟨"10.0.0.1:7000", .done⟩, ⟨"10.0.0.1:7000", .done⟩]⟩ := by
  refine .cons (s' := ⟨[[], ["10.0.0.1:7000"]], ⟨1, 1⟩, [⟨"10.0.0.1:7000", .done⟩]⟩) (caps := [0, 0, 0, 1, 0]) (by decide) (by decide +kernel)
    (by decide +kernel) ?_
  exact .cons (caps := [0, 0]) (by decide) (by decide +kernel) (by decide +kernel) (.nil _)

end Veri
