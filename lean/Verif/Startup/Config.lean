import Verif.Startup.Runtime

/-
Model of the cached logger configuration (bd-logger/src/client_config.rs, C22).

Simplifications: applying a configuration (`apply_config.apply_configuration`) has an outcome chosen by
the environment: it succeeds, returns an error, or kills the process.  A torn write leaves a file that
does not parse or lacks the `oneof` (the version nonce, field 1, is written before the configuration,
field 2: bd-proto/src/protos/client/api.rs:5341-5352), which is never applied.
-/
namespace Verif.Startup

/-- `ConfigurationUpdate`: version nonce and state of the world; `cfg = none` when the `oneof` is missing. -/
structure Upd (Cfg : Type) where
  nonce : String
  cfg : Option Cfg
  deriving DecidableEq, Repr

/-- Outcome of applying a configuration. -/
inductive Outcome where
  | ok
  | err
  | die
  deriving DecidableEq, Repr

/-- Where a configuration came from. -/
inductive Source where
  | disk
  | server
  deriving DecidableEq, Repr

/-- What an observer sees: process starts and attempts to apply a configuration. -/
inductive CfgObs (Cfg : Type) where
  | started
  | attempt (src : Source) (u : Upd Cfg) (out : Outcome)
  deriving DecidableEq, Repr

/-- `Config` (client_config.rs:71-80) and its file `config.pb` (`some none`: unparsable). -/
structure Conf (Cfg : Type) where
  file : Option (Option (Upd Cfg))
  version : Option String
  deriving DecidableEq, Repr

inductive CfgEv (Cfg : Type) where
  /-- a process starts and loads its cached configuration; `readOk`, `removeOk`: the file operations
  succeed; `die`: the process dies after the removal and before applying; `out`, `w`: outcome of applying
  and of the write -/
  | start (readOk removeOk die : Bool) (out : Outcome) (w : Wr)
  /-- the server sends a configuration -/
  | server (u : Upd Cfg) (out : Outcome) (w : Wr)

/-- `process_configuration_update` (client_config.rs:100-140). -/
def Conf.process {Cfg : Type} (c : Conf Cfg) (src : Source) (u : Upd Cfg) (out : Outcome) (w : Wr) :
    Conf Cfg × List (CfgObs Cfg) :=
  match u.cfg with
  | none => (c, [])
  | some _ =>
    match out with
    | .ok =>
      let file := match w with
        | .ok => some (some u)
        | .fail => c.file
        | .torn => some none
      (⟨file, some u.nonce⟩, [.attempt src u .ok])
    | o => (c, [.attempt src u o])

/-- Process start and `try_load_persisted_config_helper` (client_config.rs:143-170), and
`try_apply_config` (client_config.rs:175-200). -/
def Conf.step {Cfg : Type} (c : Conf Cfg) : CfgEv Cfg → Conf Cfg × List (CfgObs Cfg)
  | .start readOk removeOk die out w =>
    let c : Conf Cfg := ⟨c.file, none⟩
    match c.file with
    | none => (c, [.started])
    | some content =>
      if !readOk || !removeOk then (c, [.started])
      else
        let c : Conf Cfg := ⟨none, none⟩
        match content with
        | none => (c, [.started])
        | some u =>
          if die then (c, [.started])
          else ((c.process .disk u out w).1, .started :: (c.process .disk u out w).2)
  | .server u out w => c.process .server u out w

def Conf.run {Cfg : Type} (c : Conf Cfg) : List (CfgEv Cfg) → Conf Cfg
  | [] => c
  | e :: es => (c.step e).1.run es

/-- Everything observed in a history. -/
def Conf.obs {Cfg : Type} (c : Conf Cfg) : List (CfgEv Cfg) → List (CfgObs Cfg)
  | [] => []
  | e :: es => (c.step e).2 ++ (c.step e).1.obs es

/-- `partial_handshake` (client_config.rs:206-211). -/
def Conf.handshakeVersion {Cfg : Type} (c : Conf Cfg) : String := c.version.getD ""

end Verif.Startup
