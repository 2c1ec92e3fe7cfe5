import Verif.Startup.Config
import Verif.Time.Model
import Verif.Proto.Tables
/-
Model of the files a client keeps messages in, byte by byte: the logger configuration (bd-logger/src/client_config.rs), the runtime
configuration (bd-runtime/src/runtime.rs) and the compressed files in general (bd-client-common/src/file.rs: kill file, statistics).
A message is what the generated code writes and reads (Proto/Wire.lean).

Simplifications: `std::fs::write` puts the whole contents, leaves the file as it was, or leaves the first bytes of the new contents;
zlib is a pair of functions (the decoder reads to the end of its input); applying a configuration has the outcomes of
Startup/Config.lean.
-/
namespace Verif.Files

open Handshake (Bytes)
open Wire (Msg MsgF V table write read ixConfigurationUpdate ixRuntimeUpdate)
open Startup (Outcome Source)

/-- Outcome of `std::fs::write`. -/
inductive Wrote where
  | ok
  | fail
  | cut (k : Nat)
  deriving DecidableEq, Repr

/-- The file after it. -/
def Wrote.file (w : Wrote) (old : Option Bytes) (bs : Bytes) : Option Bytes :=
  match w with
  | .ok => some bs
  | .fail => old
  | .cut k => some (bs.take k)

/-! ### The logger configuration -/

/-- `version_nonce`. -/
def nonceOf {M : Type} (m : MsgF M) : Bytes :=
  match m.known.find? (fun x => decide (x.1 = 0)) with
  | some (_, .bytes b) => b
  | _ => []

/-- `update_type`. -/
def sotwOf {M : Type} (m : MsgF M) : Option M :=
  match m.known.find? (fun x => decide (x.1 = 1)) with
  | some (_, .msg s) => some s
  | _ => none

/-- `Config` and its file (client_config.rs:71-80). -/
structure Conf where
  file : Option Bytes
  version : Option Bytes
  deriving DecidableEq, Repr

/-- What can be seen: a process starts, a configuration is tried. -/
inductive Obs (M : Type) where
  | started
  | attempt (src : Source) (nonce : Bytes) (s : M) (out : Outcome)

inductive Ev (M : Type) where
  /-- a process starts and loads its configuration; as in Startup/Config.lean -/
  | start (readOk removeOk die : Bool) (out : Outcome) (w : Wrote)
  /-- the server sends an update -/
  | server (u : MsgF M) (out : Outcome) (w : Wrote)

variable {d : Nat}

/-- `process_configuration_update` (client_config.rs:100-140). -/
def Conf.process (c : Conf) (src : Source) (u : MsgF (Msg d)) (out : Outcome) (w : Wrote) : Conf × List (Obs (Msg d)) :=
  match sotwOf u with
  | none => (c, [])
  | some s =>
    match out with
    | .ok => (⟨w.file c.file (write table (d + 1) ixConfigurationUpdate u), some (nonceOf u)⟩, [.attempt src (nonceOf u) s .ok])
    | o => (c, [.attempt src (nonceOf u) s o])

/-- `try_load_persisted_config_helper` (client_config.rs:143-170) at a start, `try_apply_config` (client_config.rs:175-200) for an update. -/
def Conf.step (utf8 : Bytes → Bool) (c : Conf) : Ev (Msg d) → Conf × List (Obs (Msg d))
  | .start readOk removeOk die out w =>
    match c.file with
    | none => (⟨none, none⟩, [.started])
    | some bs =>
      if !readOk || !removeOk then (⟨some bs, none⟩, [.started])
      else if die then (⟨none, none⟩, [.started])
      else
        match read table utf8 (d + 1) ixConfigurationUpdate bs with
        | none => (⟨none, none⟩, [.started])
        | some u => ((Conf.process ⟨none, none⟩ .disk u out w).1, .started :: (Conf.process ⟨none, none⟩ .disk u out w).2)
  | .server u out w => c.process .server u out w

def Conf.run (utf8 : Bytes → Bool) (c : Conf) : List (Ev (Msg d)) → Conf
  | [] => c
  | e :: es => (c.step utf8 e).1.run utf8 es

def Conf.obs (utf8 : Bytes → Bool) (c : Conf) : List (Ev (Msg d)) → List (Obs (Msg d))
  | [] => []
  | e :: es => (c.step utf8 e).2 ++ (c.step utf8 e).1.obs utf8 es

/-! ### Compressed files -/

/-- `write_compressed_protobuf` (bd-client-common/src/file.rs:13-22). -/
def writeCompressed (z : Bytes → Bytes) (d ix : Nat) (m : Msg d) : Bytes := z (write table d ix m)

/-- `read_compressed_protobuf` (bd-client-common/src/file.rs:24-41). -/
def readCompressed (u : Bytes → Option Bytes) (utf8 : Bytes → Bool) (d ix : Nat) (bs : Bytes) : Option (Msg d) :=
  if bs.isEmpty then none else (u bs).bind (read table utf8 d ix)

/-- What is loaded as the runtime configuration (bd-runtime/src/runtime.rs:254-256). -/
def loadRuntime (u : Bytes → Option Bytes) (utf8 : Bytes → Bool) (d : Nat) (bs : Bytes) : Option (Msg d) :=
  (readCompressed u utf8 d ixRuntimeUpdate bs).or (read table utf8 d ixRuntimeUpdate bs)

/-! ### The kill file -/

/-- `to_be_bytes` of a `u64`. -/
def be : Nat → Nat → Bytes
  | 0, _ => []
  | k + 1, n => be k (n / 256) ++ [n % 256]

/-- A number as the field of a message: its bits, nothing if it is zero. -/
def numField {M : Type} (i bits : Nat) (n : Int) : List (Nat × V M) := if n = 0 then [] else [(i, .num (n % 2 ^ bits).toNat)]

/-- The number of a field with so many bits, zero if it is not set. -/
def numOf {M : Type} (m : MsgF M) (i bits : Nat) : Int :=
  match m.known.find? (fun x => decide (x.1 = i)) with
  | some (_, .num n) => if n < 2 ^ (bits - 1) then n else (n : Int) - 2 ^ bits
  | _ => 0

/-- `into_proto` of a time (bd-time/src/lib.rs:49-61). -/
def timestampMsg {M : Type} (t : Int) : MsgF M := ⟨numField 0 64 (Time.timeToProto t).seconds ++ numField 1 32 (Time.timeToProto t).nanos, []⟩

/-- `ClientKillFile` for an api key of this hash (bd-api/src/api.rs:537-552); a `Msg 2`. -/
def killMsg (hash : Nat) (till : Int) : MsgF (MsgF (Msg 0)) := ⟨[(0, .bytes (be 8 hash)), (1, .msg (timestampMsg till))], []⟩

/-- `to_offset_date_time` (bd-time/src/lib.rs:99-104); `none`: a panic. -/
def timeOf {M : Type} (t : MsgF M) : Option Int := Time.protoToTime ⟨numOf t 0 64, numOf t 1 32⟩

/-- `kill_until.to_offset_date_time()`; a message that is not there is the default. -/
def tillOf (m : MsgF (MsgF (Msg 0))) : Option Int := timeOf ((sotwOf m).getD ⟨[], []⟩)

def ixClientKillFile : Nat := 6

/-- The kill file after `write_kill_file` with a time to be silent until, for an api key of this hash (bd-api/src/api.rs:537-552). -/
def writeKill (z : Bytes → Bytes) (hash : Nat) (till : Int) : Bytes := writeCompressed z 2 ixClientKillFile (killMsg hash till)

/-- What `maybe_kill_client` makes of the contents of the kill file (bd-api/src/api.rs:480-524): whether the client is killed and whether
the file is removed; `none`: a panic. -/
def startKill (u : Bytes → Option Bytes) (utf8 : Bytes → Bool) (hash : Nat) (now generic : Int) (file : Option Bytes) : Option (Bool × Bool) :=
  match file.bind (readCompressed u utf8 2 ixClientKillFile) with
  | some m =>
    match tillOf m with
    | none => none
    | some till => if till > now ∧ be 8 hash = nonceOf m then some (true, false) else some (false, true)
  | none => some (decide (generic ≠ 0), false)

end Verif.Files
