import Verif.Dataset.Lemmas
/-
A concrete environment that meets `XEnv.Ok`, for the examples: configurations are written as numbers in base one.
-/
set_option autoImplicit false
namespace Veri
namespace DS

/-- Numbers as runs of `1`, each ended by `0`. -/
def unary : List Nat → Bytes
  | [] => []
  | n :: r => List.replicate n 1 ++ 0 :: unary r

def unUnary : Nat → Bytes → List Nat
  | _, [] => []
  | n, b :: bs => if b = 1 then unUnary (n + 1) bs else if b = 0 then n :: unUnary 0 bs else unUnary n bs

theorem unUnary_replicate (n : Nat) : ∀ (k : Nat) (r : Bytes), unUnary k (List.replicate n 1 ++ 0 :: r) = (k + n) :: unUnary 0 r := by
  induction n with
  | zero => intro k r; simp [unUnary]
  | succ n ih => intro k r; rw [List.replicate_succ, List.cons_append, unUnary, if_pos rfl, ih]; congr 1; omega

theorem unUnary_unary : ∀ (l : List Nat) (t : Bytes), unUnary 0 (unary l ++ t) = l ++ unUnary 0 t
  | [], t => rfl
  | n :: r, t => by
    rw [unary, List.append_assoc, List.cons_append, unUnary_replicate, unUnary_unary r t]
    simp

theorem unUnary_skip : ∀ (t : Bytes) (n : Nat), (∀ b ∈ t, b ≠ 0 ∧ b ≠ 1) → unUnary n t = []
  | [], _, _ => rfl
  | b :: bs, n, h => by
    have := h b (by simp)
    rw [unUnary, if_neg this.2, if_neg this.1]
    exact unUnary_skip bs n (fun b' hb => h b' (by simp [hb]))

theorem unary_mem : ∀ (l : List Nat) (b : UInt8), b ∈ unary l → b = 0 ∨ b = 1
  | [], _, h => by simp [unary] at h
  | n :: r, b, h => by
    rw [unary] at h
    rcases List.mem_append.mp h with h | h
    · exact Or.inr (List.mem_replicate.mp h).2
    · rcases List.mem_cons.mp h with h | h
      · exact Or.inl h
      · exact unary_mem r b h

def toNats (c : DataConfig) : List Nat :=
  c.version.toNat :: c.targetN.toNat :: c.targetUtilization.toNat :: c.noTarget.toNat :: c.replicationOnInsert.toNat ::
    c.enforceReplicationOnInsert.toNat :: c.retention.toNat :: c.name.toList.map Char.toNat

def ofNats : List Nat → Option DataConfig
  | v :: t :: u :: nt :: r :: e :: rt :: name =>
    some ⟨String.ofList (name.map Char.ofNat), UInt64.ofNat v, UInt64.ofNat t, UInt64.ofNat u, decide (nt = 1), UInt32.ofNat r,
      decide (e = 1), UInt64.ofNat rt⟩
  | _ => none

theorem ofNats_toNats (c : DataConfig) : ofNats (toNats c) = some c := by
  obtain ⟨name, v, t, u, nt, r, e, rt⟩ := c
  simp only [toNats, ofNats, UInt64.ofNat_toNat, UInt32.ofNat_toNat, List.map_map]
  have h1 : ∀ b : Bool, decide (b.toNat = 1) = b := by decide
  have h2 : (Char.ofNat ∘ Char.toNat) = id := by funext c; simp
  rw [h2]
  simp [h1]

/-- The environment; `pad` bytes are added to each line. -/
def toy (pad : Nat) : XEnv where
  extend := fun old _ d => old.map (· + d)
  marshal := fun c => if Finite c then some (unary (toNats c) ++ List.replicate pad 2) else none
  unmarshal := fun b => ofNats (unUnary 0 b)

theorem toy_ok (pad : Nat) : (toy pad).Ok where
  extend := fun old now d h _ => ⟨old + d, rfl, by omega, by omega⟩
  plain := by
    rintro c ⟨hf, _⟩
    have hf : Finite c := hf
    refine ⟨_, if_pos hf, ?_, ?_⟩
    · intro h
      rcases List.mem_append.mp h with h | h
      · rcases unary_mem _ _ h with h | h <;> exact absurd h (by decide)
      · exact absurd (List.mem_replicate.mp h).2 (by decide)
    · show ofNats (unUnary 0 _) = _
      rw [List.append_assoc, unUnary_unary, unUnary_skip, List.append_nil, ofNats_toNats]
      intro b hb
      rcases List.mem_append.mp hb with hb | hb
      · rw [(List.mem_replicate.mp hb).2]; decide
      · rw [List.mem_singleton.mp hb]; decide
  notNumber := fun c h => if_neg h
  empty := rfl

end DS
end Veri
