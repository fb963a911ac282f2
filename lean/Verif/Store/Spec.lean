import Verif.Store.Model
/-
Independent reference for the store: a map from datum keys (not their encodings) to the remembered
value and expiry.  Nothing here refers to the functions of the model.
-/
set_option autoImplicit false
namespace Veri.Ref

/-- What the reference map remembers for a key.  `expireAt = 0` means "never expires". -/
structure Rec where
  value : DatumValue
  expireAt : Int64
  deriving DecidableEq

abbrev RefMap := DatumKey → Option Rec

def empty : RefMap := fun _ => none

def update (r : RefMap) (k : DatumKey) (x : Option Rec) : RefMap := fun k' => if k' = k then x else r k'

/-- The expiry asked for: never without a TTL, else insert time plus TTL (64-bit arithmetic). -/
def expiry (now : Int64) (config : Option InsertConfig) : Int64 :=
  match config with
  | none => 0
  | some c => if c.ttl = 0 then 0 else now + c.ttl.toInt64

/-- Two expiries are less than ten seconds apart (64-bit arithmetic). -/
def near (a b : Int64) : Prop := (a - b).toInt.natAbs < 10

instance (a b : Int64) : Decidable (near a b) := by unfold near; infer_instance

/-- Insert: an identical value with a near expiry changes nothing, everything else overwrites. -/
def insert (r : RefMap) (now : Int64) (k : DatumKey) (v : DatumValue) (config : Option InsertConfig) : RefMap :=
  match r k with
  | some old =>
    if old.value = v ∧ near (expiry now config) old.expireAt then r
    else update r k (some ⟨v, expiry now config⟩)
  | none => update r k (some ⟨v, expiry now config⟩)

def delete (r : RefMap) (k : DatumKey) : RefMap := update r k none

/-- Alive at a clock value: no expiry, or expiry still in the future. -/
def Rec.alive (x : Rec) (now : Int64) : Prop := x.expireAt = 0 ∨ now < x.expireAt

instance (x : Rec) (now : Int64) : Decidable (x.alive now) := by unfold Rec.alive; infer_instance

/-- A scan that looks at key `k` at clock value `clock k` forgets what has expired by then ... -/
def afterScan (r : RefMap) (clock : DatumKey → Int64) : RefMap :=
  fun k => (r k).filter fun x => decide (x.alive (clock k))

/-- ... and shows the rest. -/
def shows (r : RefMap) (clock : DatumKey → Int64) (k : DatumKey) (v : DatumValue) : Prop :=
  ∃ x, r k = some x ∧ x.alive (clock k) ∧ x.value = v

end Veri.Ref

namespace Veri.Store

/-- An operation on the store, with everything it depends on. -/
inductive Op where
  | insert (now : Int64) (k : DatumKey) (v : DatumValue) (config : Option InsertConfig)
  | delete (k : DatumKey) (value : Option DatumValue)
  | scan (clock : DatumKey → Int64)

/-- One operation of the modelled code: store before, operation, store after, data returned. -/
inductive Step : DBMap → Op → DBMap → List Datum → Prop where
  | insert {m m' now k v config b} :
      insertBDMap now m (some ⟨some k, some v⟩) config = .ok (m', b) →
      Step m (.insert now k v config) m' []
  | delete {m m' k value} :
      deleteBDMap m (some ⟨some k, value⟩) = .ok m' → Step m (.delete k value) m' []
  | scan {m m' vs clock out} :
      IsRange m vs → (∀ v ∈ vs, ∀ k, v.entry.datum.key = some k → v.now = clock k) →
      streamAll vs m = .ok (m', out, none) → Step m (.scan clock) m' out

/-- A history of operations. -/
inductive Steps : DBMap → List Op → DBMap → Prop where
  | nil {m} : Steps m [] m
  | cons {m m' m'' op ops out} : Step m op m' out → Steps m' ops m'' → Steps m (op :: ops) m''

/-- The same operation on the reference map. -/
def refStep (r : Ref.RefMap) : Op → Ref.RefMap
  | .insert now k v config => Ref.insert r now k v config
  | .delete k _ => Ref.delete r k
  | .scan clock => Ref.afterScan r clock

/-- The reference map after a history. -/
def refRun (r : Ref.RefMap) : List Op → Ref.RefMap
  | [] => r
  | op :: ops => refRun (refStep r op) ops

/-- Operations that (re-)insert key `k`. -/
def Op.inserts (k : DatumKey) : Op → Prop
  | .insert _ k' _ _ => k' = k
  | _ => False

/-- Operations that insert or delete key `k`. -/
def Op.writes (k : DatumKey) : Op → Prop
  | .insert _ k' _ _ => k' = k
  | .delete k' _ => k' = k
  | .scan _ => False

/-- If the operation is a scan, it looks at `k` before time `t`. -/
def Op.before (k : DatumKey) (t : Int) : Op → Prop
  | .scan clock => (clock k).toInt < t
  | _ => True

end Veri.Store
