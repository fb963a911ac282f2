/-
Finite maps as association lists with unique keys: the model of `sync.Map`, of Go maps and of the
item table of `cache.Cache`.  Iteration order is never taken from the list: every iteration in
the model gets its order as an argument.
-/
set_option autoImplicit false
universe u v
namespace Veri

/-- Association list; `AMap.Nodup` states that keys are unique. -/
abbrev AMap (κ : Type u) (α : Type v) := List (κ × α)

namespace AMap
variable {κ : Type u} {α : Type v} [DecidableEq κ]

def get? (m : AMap κ α) (k : κ) : Option α :=
  match m with
  | [] => none
  | (k', v) :: m => if k' = k then some v else get? m k

def erase (m : AMap κ α) (k : κ) : AMap κ α :=
  match m with
  | [] => []
  | (k', v) :: m => if k' = k then erase m k else (k', v) :: erase m k

def set (m : AMap κ α) (k : κ) (v : α) : AMap κ α := (k, v) :: m.erase k

def keys (m : AMap κ α) : List κ := m.map (·.1)

/-- Keys are unique. -/
def Nodup (m : AMap κ α) : Prop := (keys m).Nodup

@[simp] theorem get?_nil (k : κ) : get? ([] : AMap κ α) k = none := rfl

theorem get?_erase_self (m : AMap κ α) (k : κ) : (m.erase k).get? k = none := by
  induction m with
  | nil => rfl
  | cons p m ih =>
    obtain ⟨k', v⟩ := p
    simp only [erase]
    split
    · exact ih
    · rename_i h; simp [get?, h, ih]

theorem get?_erase_ne (m : AMap κ α) {k k' : κ} (h : k ≠ k') : (m.erase k).get? k' = m.get? k' := by
  induction m with
  | nil => rfl
  | cons p m ih =>
    obtain ⟨k'', v⟩ := p
    simp only [erase]
    split
    · rename_i h2
      have : k'' ≠ k' := by rw [h2]; exact h
      simp [get?, this, ih]
    · simp only [get?]; rw [ih]

theorem get?_erase (m : AMap κ α) (k k' : κ) :
    (m.erase k).get? k' = if k = k' then none else m.get? k' := by
  split
  · rename_i h; subst h; exact get?_erase_self m k
  · rename_i h; exact get?_erase_ne m h

@[simp] theorem get?_set_self (m : AMap κ α) (k : κ) (v : α) : (m.set k v).get? k = some v := by
  simp [set, get?]

theorem get?_set_ne (m : AMap κ α) {k k' : κ} (v : α) (h : k ≠ k') :
    (m.set k v).get? k' = m.get? k' := by
  simp [set, get?, h, get?_erase_ne m h]

theorem get?_set (m : AMap κ α) (k k' : κ) (v : α) :
    (m.set k v).get? k' = if k = k' then some v else m.get? k' := by
  split
  · rename_i h; subst h; exact get?_set_self m k v
  · rename_i h; exact get?_set_ne m v h

theorem mem_erase (m : AMap κ α) (k : κ) (p : κ × α) : p ∈ m.erase k ↔ p ∈ m ∧ p.1 ≠ k := by
  induction m with
  | nil => simp [erase]
  | cons q m ih =>
    obtain ⟨k', v⟩ := q
    simp only [erase]
    split
    · rename_i h
      rw [ih]
      constructor
      · rintro ⟨h1, h2⟩; exact ⟨List.mem_cons_of_mem _ h1, h2⟩
      · rintro ⟨h1, h2⟩
        rcases List.mem_cons.1 h1 with h1 | h1
        · subst h1; exact absurd h h2
        · exact ⟨h1, h2⟩
    · rename_i h
      rw [List.mem_cons, ih, List.mem_cons]
      constructor
      · rintro (h1 | ⟨h1, h2⟩)
        · subst h1; exact ⟨Or.inl rfl, h⟩
        · exact ⟨Or.inr h1, h2⟩
      · rintro ⟨h1 | h1, h2⟩
        · exact Or.inl h1
        · exact Or.inr ⟨h1, h2⟩

theorem mem_set (m : AMap κ α) (k : κ) (v : α) (p : κ × α) :
    p ∈ m.set k v ↔ p = (k, v) ∨ (p ∈ m ∧ p.1 ≠ k) := by
  rw [set, List.mem_cons, mem_erase]

theorem keys_erase (m : AMap κ α) (k : κ) : keys (m.erase k) = (keys m).filter (· ≠ k) := by
  induction m with
  | nil => rfl
  | cons q m ih =>
    obtain ⟨k', v⟩ := q
    simp only [erase]
    split
    · rename_i h; subst h; simpa [keys] using ih
    · rename_i h; simpa [keys, h] using ih

omit [DecidableEq κ] in
theorem nodup_nil : Nodup ([] : AMap κ α) := List.nodup_nil

theorem nodup_erase {m : AMap κ α} (h : Nodup m) (k : κ) : Nodup (m.erase k) := by
  rw [Nodup, keys_erase]; exact h.filter _

theorem nodup_set {m : AMap κ α} (h : Nodup m) (k : κ) (v : α) : Nodup (m.set k v) := by
  show (keys ((k, v) :: m.erase k)).Nodup
  simp only [keys, List.map_cons, List.nodup_cons]
  constructor
  · intro hc
    have : k ∈ keys (m.erase k) := hc
    rw [keys_erase] at this
    simp at this
  · exact nodup_erase h k

theorem mem_of_get? {m : AMap κ α} {k : κ} {v : α} (h : m.get? k = some v) : (k, v) ∈ m := by
  induction m with
  | nil => simp at h
  | cons q m ih =>
    obtain ⟨k', v'⟩ := q
    simp only [get?] at h
    split at h
    · rename_i hk; subst hk; injection h with h; subst h; exact List.mem_cons_self
    · exact List.mem_cons_of_mem _ (ih h)

theorem get?_of_mem {m : AMap κ α} (hn : Nodup m) {k : κ} {v : α} (h : (k, v) ∈ m) :
    m.get? k = some v := by
  induction m with
  | nil => simp at h
  | cons q m ih =>
    obtain ⟨k', v'⟩ := q
    simp only [Nodup, keys, List.map_cons, List.nodup_cons] at hn
    rcases List.mem_cons.1 h with h | h
    · injection h with h1 h2; subst h1; subst h2; simp [get?]
    · simp only [get?]
      split
      · rename_i hk
        subst hk
        exact absurd (List.mem_map_of_mem (f := (·.1)) h) hn.1
      · exact ih hn.2 h

theorem mem_iff_get? {m : AMap κ α} (hn : Nodup m) {k : κ} {v : α} :
    (k, v) ∈ m ↔ m.get? k = some v := ⟨get?_of_mem hn, mem_of_get?⟩

theorem get?_eq_none_iff {m : AMap κ α} {k : κ} : m.get? k = none ↔ k ∉ keys m := by
  induction m with
  | nil => simp [keys]
  | cons q m ih =>
    obtain ⟨k', v'⟩ := q
    simp only [get?, keys, List.map_cons, List.mem_cons, not_or]
    split
    · rename_i h; simp [h]
    · rename_i h
      rw [ih]
      exact ⟨fun h' => ⟨fun e => h e.symm, h'⟩, fun h' => h'.2⟩

omit [DecidableEq κ] in
theorem nodup_perm {m m' : AMap κ α} (hp : m.Perm m') : Nodup m ↔ Nodup m' :=
  List.Perm.nodup_iff (List.Perm.map (fun x : κ × α => x.1) hp)

theorem get?_perm {m m' : AMap κ α} (hn : Nodup m) (hp : m.Perm m') (k : κ) : m'.get? k = m.get? k := by
  have hn' : Nodup m' := (nodup_perm hp).1 hn
  cases h : m.get? k with
  | some v => exact get?_of_mem hn' (hp.mem_iff.1 (mem_of_get? h))
  | none =>
    rw [get?_eq_none_iff] at h ⊢
    exact fun hc => h ((List.Perm.map (fun x : κ × α => x.1) hp).mem_iff.2 hc)

theorem erase_of_not_mem {m : AMap κ α} {k : κ} (h : k ∉ keys m) : m.erase k = m := by
  induction m with
  | nil => rfl
  | cons q m ih =>
    obtain ⟨k', v'⟩ := q
    simp only [keys, List.map_cons, List.mem_cons, not_or] at h
    rw [erase, if_neg (fun e => h.1 e.symm), ih h.2]

theorem length_erase {m : AMap κ α} (hn : Nodup m) {k : κ} (h : k ∈ keys m) :
    (m.erase k).length + 1 = m.length := by
  induction m with
  | nil => simp [keys] at h
  | cons q m ih =>
    obtain ⟨k', v'⟩ := q
    simp only [Nodup, keys, List.map_cons, List.nodup_cons] at hn
    simp only [erase]
    split
    · rename_i e
      subst e
      rw [erase_of_not_mem hn.1]; rfl
    · rename_i e
      have : k ∈ keys m := by
        simp only [keys, List.map_cons, List.mem_cons] at h
        rcases h with h | h
        · exact absurd h.symm e
        · exact h
      simp [ih hn.2 this]

end AMap
end Veri
