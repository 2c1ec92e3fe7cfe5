/-
Configuration loaded from a watched file: bd-runtime-config/src/loader.rs (`WatchedFileLoader`).

The watcher's thread (`notify`) sends what it observes in the directory into a channel (loader.rs:128-132); the loader's task reloads the
file at every event that is a rename with both ends in the directory, ignores all other events, and ends at the first error or when the
watcher is dropped (loader.rs:262-286).  The watch is set up before the first load (loader.rs:236-244).

Simplifications: the channel's 16 slots are not modelled (the watcher's thread waits; the kernel's queue holds the rest), a file is its
content or unreadable, and reading it is atomic (the documented way to change it is a rename).
-/
namespace Verif.Report

/-- What arrives in the channel. -/
inductive NEv where
  /-- `Modify(Name(Both))`: a rename within the directory -/
  | both
  /-- any other event -/
  | other
  /-- an error of the watcher -/
  | err
  deriving DecidableEq, Repr

/-- The file, the channel, and the loader: `snap` is the value of the watch channel the users read, `none` before the first load; `ended`
says that the task is gone. -/
structure FL (β : Type) where
  file : Option String
  queue : List NEv
  closed : Bool
  snap : Option β
  ended : Bool

inductive FEv where
  /-- the file gets this content by a rename within the directory; `none`: it is gone or unreadable -/
  | rename (c : Option String)
  /-- the file gets this content in another way: written in place, moved in from another directory (only `Name(To)`), or a rename whose
  event the kernel dropped because its queue was full (reported as `Other`) -/
  | change (c : Option String)
  | noise
  | error
  /-- `new_loader` loads the file -/
  | load
  /-- the task handles an event -/
  | poll
  /-- `shutdown` drops the watcher (loader.rs:152-171) -/
  | shutdown
  deriving DecidableEq, Repr

/-- `load_config` (loader.rs:292-323). -/
def loadConfig {α β : Type} (parse : String → Option α) (conv : Option α → β) (file : Option String) : β :=
  conv (match file with
    | some d => match parse d with
      | some a => some a
      | none => none
    | none => none)

/-- An event arrives in the channel, unless the watcher is gone. -/
def FL.send {β : Type} (s : FL β) (e : NEv) : FL β := if s.closed then s else { s with queue := s.queue ++ [e] }

/-- `new_loader` (loader.rs:225-290) and its task. -/
def FL.step {α β : Type} (parse : String → Option α) (conv : Option α → β) (s : FL β) : FEv → FL β
  | .rename c => FL.send { s with file := c } .both
  | .change c => FL.send { s with file := c } .other
  | .noise => s.send .other
  | .error => s.send .err
  | .load => if s.snap.isSome then s else { s with snap := some (loadConfig parse conv s.file) }
  | .poll =>
    if s.ended || s.snap.isNone then s
    else match s.queue with
      | [] => if s.closed then { s with ended := true } else s
      | .both :: q => { s with queue := q, snap := some (loadConfig parse conv s.file) }
      | .other :: q => { s with queue := q }
      | .err :: q => { s with queue := q, ended := true }
  | .shutdown => { s with closed := true }

def FL.run {α β : Type} (parse : String → Option α) (conv : Option α → β) (s : FL β) (evs : List FEv) : FL β :=
  evs.foldl (FL.step parse conv) s

/-- The watch is set up; the file has some content. -/
def FL.init {β : Type} (file : Option String) : FL β := ⟨file, [], false, none, false⟩

end Verif.Report
