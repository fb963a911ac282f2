import Verif.Server.Props
/-
C195: which configuration file is read (cmd/root.go).
-/
set_option autoImplicit false
namespace Veri
namespace Settings

/-! ### Model -/

/-- The surroundings of the process: the environment, the home directory (go-homedir may find none), and what can be read of the file at a
path, or of the file `config` in a directory (viper tries its endings). -/
structure World where
  env : String → Option String
  home : Option String
  file : String → Option (String → Option Val)
  inDir : String → Option (String → Option Val)

/-- viper v1.8.1 `getEnv`: an empty variable counts as none. -/
def World.var (w : World) (name : String) : Option String :=
  match w.env name with
  | some "" => none
  | x => x

/-- cmd/root.go:56, 62, 64: `viper.GetString("config")` before a file has been read.  With `AutomaticEnv` the variable named like the key, in
upper case, comes first, then the one bound to it. -/
def configVar (w : World) : String := (w.var "CONFIG").getD ((w.var "VERICONFIG").getD "")

/-- What `initConfig` comes to: the end of the process with a code, or the contents of the configuration file, if there is one. -/
inductive Init where
  | exit (code : Nat)
  | goesOn (contents : Option (String → Option Val))

/-- cmd/root.go:61-89 `initConfig`; `flag` is what `--config` has set (by default empty). -/
def initConfig (flag : String) (w : World) : Init :=
  let cfgFile := if flag = "" then configVar w else flag
  if cfgFile ≠ "" then .goesOn (w.file cfgFile)
  else
    match w.home with
    | none => .exit 1
    | some home => .goesOn (w.inDir (home ++ "/.veri"))

/-- What is given on the command line. -/
structure Flags where
  config : String
  services : Option String
  port : Option Int
  broadcast : Option String
  directory : Option String

/-- cobra: `initConfig` (cmd/root.go:47), then the command (cmd/serve.go:27-43); the end of the process is `panic` here.  The key `broadcast` in the environment is `BROADCAST`. -/
def start (a : Flags) (w : World) : Res Config :=
  match initConfig a.config w with
  | .exit _ => .panic
  | .goesOn contents => .ok (serve
      { services := ⟨a.services, w.env "SERVICES", contents.bind fun c => c "services"⟩
        port := ⟨a.port, w.env "PORT", contents.bind fun c => c "port"⟩
        broadcast := ⟨a.broadcast, w.env "BROADCAST", contents.bind fun c => c "broadcast"⟩
        directory := ⟨a.directory, w.env "DIRECTORY", contents.bind fun c => c "directory"⟩ })

end Settings

/-! ### Properties -/

namespace Ref
open Settings

/-- The file that the user means: that of the command line, else that of `VERICONFIG`, else the one in the home directory. -/
def meant (a : Flags) (w : World) : Option (String → Option Val) :=
  if a.config ≠ "" then w.file a.config
  else
    match w.env "VERICONFIG" with
    | some v => if v ≠ "" then w.file v else w.home.bind fun h => w.inDir (h ++ "/.veri")
    | none => w.home.bind fun h => w.inDir (h ++ "/.veri")

/-- The addresses that the user means. -/
def meantBroadcast (a : Flags) (w : World) : String :=
  match a.broadcast with
  | some b => b
  | none =>
    match w.env "BROADCAST" with
    | some b => if b ≠ "" then b else
      match (meant a w).bind fun c => c "broadcast" with
      | some (.text b) => b
      | _ => ""
    | none =>
      match (meant a w).bind fun c => c "broadcast" with
      | some (.text b) => b
      | _ => ""

end Ref
open Settings

/-- C195, full statement: whatever files can be read, the server starts, with the settings of the file that the user means.  FALSE of the
code. -/
def C195_statement : Prop :=
  ∀ (a : Flags) (w : World), ∃ c, start a w = .ok c ∧ c.broadcast = Ref.meantBroadcast a w

theorem Settings.broadcast_eq (fl : Option String) (env : Option String) (file : Option Val) (s : Given String) (p : Given Int) (d : Given String) :
    (serve ⟨s, p, ⟨fl, env, file⟩, d⟩).broadcast =
      match fl with
      | some b => b
      | none =>
        match env with
        | some b => if b ≠ "" then b else
          match file with
          | some (.text b) => b
          | _ => ""
        | none =>
          match file with
          | some (.text b) => b
          | _ => "" := by
  cases fl with
  | some b => rfl
  | none =>
    cases env with
    | none => cases file with
      | none => rfl
      | some v => cases v <;> rfl
    | some b =>
      by_cases hb : b = ""
      · subst hb
        cases file with
        | none => rfl
        | some v => cases v <;> rfl
      · simp [serve, viperGet, hb]

/-- C195, exactly: the server starts unless no file is named and there is no home directory (then it ends with code 1); a file that cannot be
read is no obstacle.  The file is that of the command line, else that of `CONFIG`, else that of `VERICONFIG`, else the one in the home
directory. -/
theorem C195_exact (a : Flags) (w : World) :
    ((∃ c, start a w = .ok c) ↔ (a.config ≠ "" ∨ w.var "CONFIG" ≠ none ∨ w.var "VERICONFIG" ≠ none ∨ w.home ≠ none)) ∧
    (∀ h, a.config = "" → w.var "CONFIG" = none → w.var "VERICONFIG" = none → w.home = some h →
      initConfig a.config w = .goesOn (w.inDir (h ++ "/.veri"))) ∧
    (a.config ≠ "" → initConfig a.config w = .goesOn (w.file a.config)) ∧
    (∀ p, a.config = "" → w.var "CONFIG" = some p → initConfig a.config w = .goesOn (w.file p)) ∧
    (∀ p, a.config = "" → w.var "CONFIG" = none → w.var "VERICONFIG" = some p → initConfig a.config w = .goesOn (w.file p)) ∧
    (a.config = "" → w.var "CONFIG" = none → w.var "VERICONFIG" = none → w.home = none → initConfig a.config w = .exit 1) := by
  have hvar : ∀ n p, w.var n = some p → p ≠ "" := by
    intro n p h hp
    subst hp
    unfold World.var at h
    split at h
    · cases h
    · rename_i h'; exact h' h
  have e3 : a.config ≠ "" → initConfig a.config w = .goesOn (w.file a.config) := by
    intro h; simp [initConfig, h]
  have e4 : ∀ p, a.config = "" → w.var "CONFIG" = some p → initConfig a.config w = .goesOn (w.file p) := by
    intro p h1 h2; simp [initConfig, configVar, h1, h2, hvar _ _ h2]
  have e5 : ∀ p, a.config = "" → w.var "CONFIG" = none → w.var "VERICONFIG" = some p → initConfig a.config w = .goesOn (w.file p) := by
    intro p h1 h2 h3; simp [initConfig, configVar, h1, h2, h3, hvar _ _ h3]
  have e6 : a.config = "" → w.var "CONFIG" = none → w.var "VERICONFIG" = none → w.home = none → initConfig a.config w = .exit 1 := by
    intro h1 h2 h3 h4; simp [initConfig, configVar, h1, h2, h3, h4]
  have e2 : ∀ h, a.config = "" → w.var "CONFIG" = none → w.var "VERICONFIG" = none → w.home = some h →
      initConfig a.config w = .goesOn (w.inDir (h ++ "/.veri")) := by
    intro h h1 h2 h3 h4; simp [initConfig, configVar, h1, h2, h3, h4]
  refine ⟨?_, e2, e3, e4, e5, e6⟩
  have go : ∀ x, initConfig a.config w = .goesOn x → ∃ c, start a w = .ok c := by
    intro x hx
    unfold start
    rw [hx]
    exact ⟨_, rfl⟩
  by_cases h1 : a.config = ""
  · cases h2 : w.var "CONFIG" with
    | some p => exact ⟨fun _ => by simp, fun _ => go _ (e4 p h1 h2)⟩
    | none =>
      cases h3 : w.var "VERICONFIG" with
      | some p => exact ⟨fun _ => by simp, fun _ => go _ (e5 p h1 h2 h3)⟩
      | none =>
        cases h4 : w.home with
        | some h => exact ⟨fun _ => by simp, fun _ => go _ (e2 h h1 h2 h3 h4)⟩
        | none =>
          refine ⟨?_, by simp [h1]⟩
          rintro ⟨c, hc⟩
          unfold start at hc
          rw [e6 h1 h2 h3 h4] at hc
          cases hc
  · exact ⟨fun _ => .inl h1, fun _ => go _ (e3 h1)⟩

namespace Settings

/-- `VERICONFIG` names a file, and something else on the machine has set `CONFIG`. -/
def exWorld : World where
  env := fun n => if n = "VERICONFIG" then some "/etc/veri.yaml" else if n = "CONFIG" then some "production" else none
  home := some "/root"
  file := fun p => if p = "/etc/veri.yaml" then some fun k => if k = "broadcast" then some (.text "veri-0:10000") else none else none
  inDir := fun _ => none

def exFlags : Flags := ⟨"", none, none, none, none⟩

end Settings

theorem C195_fails : ¬ C195_statement := by
  intro h
  obtain ⟨c, h1, h2⟩ := h exFlags exWorld
  have e : start exFlags exWorld = .ok ⟨"", 10000, "", ""⟩ := by with_unfolding_all rfl
  rw [e] at h1
  cases h1
  revert h2
  decide +kernel

/-- C195 where the command line names a file or nothing has set `CONFIG`, and a file is named or there is a home directory. -/
theorem C195_partial (a : Flags) (w : World) (hc : a.config ≠ "" ∨ w.var "CONFIG" = none)
    (hh : a.config ≠ "" ∨ w.var "VERICONFIG" ≠ none ∨ w.home ≠ none) :
    ∃ c, start a w = .ok c ∧ c.broadcast = Ref.meantBroadcast a w ∧ c.services = a.services.getD "" ∧ c.port = a.port.getD 10000 ∧
      c.directory = a.directory.getD "" := by
  have hi : initConfig a.config w = .goesOn (Ref.meant a w) := by
    unfold Ref.meant
    by_cases h1 : a.config = ""
    · replace hc : w.var "CONFIG" = none := hc.resolve_left (fun h => h h1)
      replace hh := hh.resolve_left (fun h => h h1)
      rw [if_neg (by simp [h1])]
      unfold initConfig configVar
      rw [if_pos h1, hc]
      unfold World.var at hh ⊢
      cases h2 : w.env "VERICONFIG" with
      | none =>
        rw [h2] at hh
        obtain ⟨h, hh⟩ := Option.ne_none_iff_exists'.1 (hh.resolve_left (fun h => h rfl))
        rw [hh]
        simp
      | some v =>
        by_cases h3 : v = ""
        · subst h3
          rw [h2] at hh
          obtain ⟨h, hh⟩ := Option.ne_none_iff_exists'.1 (hh.resolve_left (fun h => h rfl))
          rw [hh]
          simp
        · have : (match some v with | some "" => none | x => x) = some v := by
            split
            · rename_i h; cases h; exact absurd rfl h3
            · rfl
          rw [this]
          simp [h3]
    · rw [if_pos h1]; simp [initConfig, h1]
  unfold start
  rw [hi]
  refine ⟨_, rfl, ?_, rfl, rfl, rfl⟩
  rw [broadcast_eq]
  rfl

/-- The file that `VERICONFIG` names is used, if nothing has set `CONFIG`. -/
theorem C195_example : start exFlags { exWorld with env := fun n => if n = "VERICONFIG" then some "/etc/veri.yaml" else none } =
    .ok ⟨"", 10000, "veri-0:10000", ""⟩ := by with_unfolding_all rfl

end Veri
