import Verif.Files.Model
import Verif.Dataset.Toy
/-
C84, C85: what is deleted from the disk.
-/
set_option autoImplicit false
namespace Veri
namespace Files

/-! ### Specification -/

/-- The directory of a data set: the one with its name in the directory `data` of the node. -/
def Own (dir : Path) (name : String) (f : Path) : Prop := (dir ++ ["data", name]) <+: f

/-- A name that can be the name of a directory. -/
def Ordinary (name : String) : Prop := name ≠ "" ∧ name ≠ "." ∧ name ≠ ".." ∧ '/' ∉ name.toList

instance (name : String) : Decidable (Ordinary name) := by unfold Ordinary; infer_instance
instance (dir : Path) (name : String) (f : Path) : Decidable (Own dir name f) := by unfold Own; infer_instance

/-! ### Lemmas -/

theorem splitChars_plain : ∀ (cs acc : List Char), '/' ∉ cs → splitChars acc cs = [acc ++ cs]
  | [], acc, _ => by simp [splitChars]
  | c :: cs, acc, h => by
    have hc : c ≠ '/' := fun e => h (e ▸ List.mem_cons_self)
    have := splitChars_plain cs (acc ++ [c]) (fun hm => h (List.mem_cons_of_mem _ hm))
    simp [splitChars, hc, this]

theorem split_plain {s : String} (h : '/' ∉ s.toList) : split s = [s] := by
  unfold split
  rw [splitChars_plain _ _ h]
  simp

theorem join_ordinary (dir : Path) {name : String} (h : Ordinary name) : join dir name = dir ++ [name] := by
  unfold join
  rw [split_plain h.2.2.2]
  simp [cleanStep, h.1, h.2.1, h.2.2.1]

theorem dbPath_ordinary (dir : Path) {name : String} (h : Ordinary name) : dbPath dir name = dir ++ ["data", name] := by
  unfold dbPath
  rw [join_ordinary dir (name := "data") (by decide), join_ordinary _ h]
  simp

theorem mem_removeAll {p f : Path} {fs : FSys} : f ∈ removeAll p fs ↔ f ∈ fs ∧ ¬ p <+: f := by
  simp only [removeAll, List.mem_filter, Bool.not_eq_true', ← List.isPrefixOf_iff_prefix, Bool.not_eq_true]

theorem mem_drop {dir f : Path} : ∀ {names : List String} {fs : FSys},
    f ∈ drop dir names fs ↔ f ∈ fs ∧ ∀ n ∈ names, ¬ dbPath dir n <+: f
  | [], fs => by simp [drop]
  | n :: ns, fs => by
    have := mem_drop (dir := dir) (f := f) (names := ns) (fs := removeAll (dbPath dir n) fs)
    simp only [drop, List.foldl_cons] at this ⊢
    rw [this, mem_removeAll]
    constructor
    · rintro ⟨⟨h1, h2⟩, h3⟩
      exact ⟨h1, fun m hm => (List.mem_cons.1 hm).elim (fun e => e ▸ h2) (h3 m)⟩
    · rintro ⟨h1, h2⟩
      exact ⟨⟨h1, h2 n List.mem_cons_self⟩, fun m hm => h2 m (List.mem_cons_of_mem _ hm)⟩

theorem step_fs {X : DS.XEnv} {dir : Path} {s s' : FState} {l : FLabel} (h : step X dir s l = some s') :
    s'.fs = drop dir (closed X s l) s.fs := by
  cases l with
  | ds l =>
    simp only [step, Option.map_eq_some_iff] at h
    obtain ⟨d, hd, rfl⟩ := h
    simp [closed, hd]
  | close names =>
    simp only [step] at h
    split at h
    · cases h; rfl
    · cases h

end Files
open Files

/-! ### C84 -/

/-- C84, full statement: whatever happens to the data sets of a node, a file disappears only if it is in the directory of a
data set that was closed.  FALSE of the code. -/
def C84_statement : Prop :=
  ∀ (X : DS.XEnv) (dir : Path) (s s' : FState) (l : FLabel), X.Ok → step X dir s l = some s' →
    ∀ f ∈ s.fs, f ∉ s'.fs → ∃ n ∈ closed X s l, Own dir n f

/-- C84, the part that holds: if the names of the data sets closed are ordinary ones, exactly the files in their directories
disappear, and none appears. -/
theorem C84_partial (X : DS.XEnv) (dir : Path) (s s' : FState) (l : FLabel) (h : step X dir s l = some s')
    (ho : ∀ n ∈ closed X s l, Ordinary n) (f : Path) :
    f ∈ s'.fs ↔ f ∈ s.fs ∧ ∀ n ∈ closed X s l, ¬ Own dir n f := by
  rw [step_fs h, mem_drop]
  constructor
  · rintro ⟨h1, h2⟩
    exact ⟨h1, fun n hn => by have := h2 n hn; rwa [dbPath_ordinary dir (ho n hn)] at this⟩
  · rintro ⟨h1, h2⟩
    exact ⟨h1, fun n hn => by rw [dbPath_ordinary dir (ho n hn)]; exact h2 n hn⟩

/-- C84, at shutdown: exactly the files in the directories of the live data sets disappear, if their names are ordinary ones. -/
theorem C84_shutdown_partial (X : DS.XEnv) (dir : Path) (s s' : FState) (names : List String)
    (h : step X dir s (.close names) = some s') (ho : ∀ n ∈ DS.names s.ds.now s.ds.list, Ordinary n) (f : Path) :
    f ∈ s'.fs ↔ f ∈ s.fs ∧ ∀ n ∈ DS.names s.ds.now s.ds.list, ¬ Own dir n f := by
  have hp : names.Perm (DS.names s.ds.now s.ds.list) := by
    simp only [step] at h
    split at h
    · exact List.isPerm_iff.1 (by assumption)
    · cases h
  have := C84_partial X dir s s' _ h (fun n hn => ho n (hp.mem_iff.1 hn)) f
  rw [this]
  exact and_congr_right fun _ => ⟨fun h n hn => h n (hp.mem_iff.2 hn), fun h n hn => h n (hp.mem_iff.1 hn)⟩

/-- The directories of two data sets with different ordinary names have no file in common. -/
theorem C84_apart (dir : Path) (n n' : String) (h : n ≠ n') (f : Path) : ¬ (Own dir n f ∧ Own dir n' f) := by
  rintro ⟨⟨t, ht⟩, ⟨t', ht'⟩⟩
  rw [← ht'] at ht
  simp at ht
  exact h ht.1

/-- C84, the three names that are not ordinary though they have no slash: a data set without a name, or named `.`, stands for the
directory of all data sets, and one named `..` for the directory of the node. -/
theorem C84_dots (dir : Path) (fs : FSys) (f : Path) :
    (∀ n, n = "" ∨ n = "." → (f ∈ drop dir [n] fs ↔ f ∈ fs ∧ ¬ dir ++ ["data"] <+: f)) ∧
    (f ∈ drop dir [".."] fs ↔ f ∈ fs ∧ ¬ dir <+: f) := by
  have h1 : dbPath dir "" = dir ++ ["data"] := by
    unfold dbPath
    rw [join_ordinary dir (name := "data") (by decide)]
    simp [join, show split "" = [""] from by decide, cleanStep]
  have h2 : dbPath dir "." = dir ++ ["data"] := by
    unfold dbPath
    rw [join_ordinary dir (name := "data") (by decide)]
    simp [join, show split "." = ["."] from by decide, cleanStep]
  have h3 : dbPath dir ".." = dir := by
    unfold dbPath
    rw [join_ordinary dir (name := "data") (by decide)]
    simp [join, show split ".." = [".."] from by decide, cleanStep]
  refine ⟨fun n hn => ?_, ?_⟩
  · rw [mem_drop]
    rcases hn with rfl | rfl
    · simp [h1]
    · simp [h2]
  · rw [mem_drop]
    simp [h3]

namespace Files

/-- A node in /srv/veri, and somebody else's file. -/
def exDir : Path := ["srv", "veri"]
def exFs : FSys := [["srv", "veri", "index.save"], ["srv", "other", "file"]]
def exStart : FState := ⟨DS.fresh 0 [], exFs⟩
/-- One request for the data set "../..", and one periodic clean-up. -/
def exSteps : List FLabel := [.ds (.use "../.."), .ds (.reload (fun _ _ => none) (fun _ => []) ["../.."])]

end Files

/-- One info request for the name "../.." and the next clean-up delete everything in the parent of the node's directory. -/
theorem C84_traversal : (exec (DS.toy 0) exDir exStart exSteps).map (·.fs) = some [] := by decide +kernel

/-- C84, counterexample: that clean-up. -/
theorem C84_fails : ¬ C84_statement := by
  intro h
  have hs : ∃ s, step (DS.toy 0) exDir exStart (.ds (.use "../..")) = some s ∧
      (step (DS.toy 0) exDir s (.ds (.reload (fun _ _ => none) (fun _ => []) ["../.."]))).any
        (fun s' => decide (["srv", "other", "file"] ∈ s.fs ∧ ["srv", "other", "file"] ∉ s'.fs)) = true ∧
      closed (DS.toy 0) s (.ds (.reload (fun _ _ => none) (fun _ => []) ["../.."])) = ["../.."] := by
    refine ⟨_, rfl, ?_, ?_⟩ <;> decide +kernel
  obtain ⟨s, _, h2, h3⟩ := hs
  rw [Option.any_eq_true] at h2
  obtain ⟨s', h4, h5⟩ := h2
  have h5 := of_decide_eq_true h5
  obtain ⟨n, hn, ho⟩ := h _ _ _ _ _ (DS.toy_ok 0) h4 _ h5.1 h5.2
  rw [h3, List.mem_singleton] at hn
  subst hn
  revert ho
  decide +kernel

/-- C84, a case: a data set with an ordinary name is deleted, with its files only. -/
example : ∃ s s', step (DS.toy 0) exDir ⟨DS.fresh 0 [], ["srv", "veri", "data", "a", "x"] :: exFs⟩ (.ds (.use "a")) = some s ∧
    step (DS.toy 0) exDir s (.ds (.delete "a")) = some s' ∧ closed (DS.toy 0) s (.ds (.delete "a")) = ["a"] ∧ Ordinary "a" ∧
    s'.fs = exFs := by
  refine ⟨_, _, rfl, rfl, ?_, ?_, ?_⟩ <;> decide +kernel

/-- C84, a case: shutdown with the data sets "a" and "b". -/
example : ∃ s s' s'', step (DS.toy 0) exDir ⟨DS.fresh 0 [], ["srv", "veri", "data", "a", "x"] :: exFs⟩ (.ds (.use "a")) = some s ∧
    step (DS.toy 0) exDir s (.ds (.use "b")) = some s' ∧ step (DS.toy 0) exDir s' (.close ["a", "b"]) = some s'' ∧
    (∀ n ∈ DS.names s'.ds.now s'.ds.list, Ordinary n) ∧ s'.fs.length = 3 ∧ s''.fs = exFs := by
  refine ⟨_, _, _, rfl, rfl, rfl, ?_, ?_, ?_⟩ <;> decide +kernel

/-! ### C85 -/

/-- C85, full statement: however the server ends, a file that is not in the directory of one of its data sets is still there.
FALSE of the code. -/
def C85_statement : Prop :=
  ∀ (dir : Path) (names : List String) (fs : FSys) (e : Ending), (∀ n ∈ names, Ordinary n) →
    ∀ f ∈ fs, f ∉ serverEnd dir names fs e → ∃ n ∈ names, Own dir n f

/-- C85, exactly: when `Listen` returns, everything in the directory of the node is deleted. -/
theorem C85_listen (dir : Path) (names : List String) (fs : FSys) (f : Path) :
    f ∈ serverEnd dir names fs .listenReturns ↔ f ∈ fs ∧ ¬ dir <+: f := mem_removeAll

/-- C85, the part that holds: after a signal the index and all other files are still there. -/
theorem C85_partial (dir : Path) (names : List String) (fs : FSys) (ho : ∀ n ∈ names, Ordinary n) (f : Path) :
    f ∈ serverEnd dir names fs .signal ↔ f ∈ fs ∧ ∀ n ∈ names, ¬ Own dir n f := by
  simp only [serverEnd, mem_drop]
  constructor
  · rintro ⟨h1, h2⟩
    exact ⟨h1, fun n hn => by have := h2 n hn; rwa [dbPath_ordinary dir (ho n hn)] at this⟩
  · rintro ⟨h1, h2⟩
    exact ⟨h1, fun n hn => by rw [dbPath_ordinary dir (ho n hn)]; exact h2 n hn⟩

/-- C85, counterexample: the port is in use, and the index of data sets that was in the directory is gone. -/
theorem C85_fails : ¬ C85_statement := by
  intro h
  obtain ⟨n, hn, _⟩ := h exDir [] exFs .listenReturns (by simp) ["srv", "veri", "index.save"] (by decide) (by decide)
  exact absurd hn (by simp)

/-- C85, a case: a data set is closed by a signal, the index stays. -/
example : Ordinary "a" ∧ ["srv", "veri", "index.save"] ∈ serverEnd exDir ["a"] (["srv", "veri", "data", "a", "x"] :: exFs) .signal ∧
    ["srv", "veri", "data", "a", "x"] ∉ serverEnd exDir ["a"] (["srv", "veri", "data", "a", "x"] :: exFs) .signal := by
  decide +kernel

end Veri
