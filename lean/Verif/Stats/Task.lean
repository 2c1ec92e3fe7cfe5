import Verif.Stats.Store

/-
Model of the metrics pipeline: the collectors (bd-client-stats-store/src/lib.rs), the flusher task
(bd-client-stats/src/stats.rs) and the file manager (bd-client-stats/src/file_manager.rs).

The flusher is a single task; one step of the model is one file system operation or one decision between two of them,
so other threads (which fetch metrics, increment them and drop their handles), crashes of the process and failures of
every single file system operation can come between any two.  The file manager's lock is only ever taken by this task.

Simplifications.  File names (random identifiers) are numbers never used before, also not before a crash.  Metrics of a
collector are visited in the order they are stored in (a `HashMap` in the code).  Writing a file can succeed, fail and
leave the file as it was, or fail and leave the file unreadable; a crash can also leave the file being written
unreadable.  A file that is readable is one that was written completely (zlib has a checksum).  Times are natural
numbers.  Files are damaged or lost only while the task is waiting or the process is not running.
-/
namespace Verif.Stats

/-- `PendingFile`, an entry of the index: name, `period_start`, `period_end`. -/
structure PFile where
  name : Nat
  start : Nat
  stop : Option Nat
  deriving DecidableEq, Repr

/-- `StatsUploadRequest` with its one snapshot. -/
structure File where
  uuid : Nat
  content : Content
  deriving DecidableEq, Repr

/-- The index file. -/
inductive IndexFile where
  | missing
  | unreadable
  | good (l : List PFile)
  deriving DecidableEq, Repr

/-- `Inner` (file_manager.rs:129-132): not initialized, `NotInitialized(None)` (the file system was taken out by an
initialization that did not finish), initialized. -/
inductive FmState where
  | uninit | taken | ready
  deriving DecidableEq, Repr

/-- Which operation of the file manager waits for its initialization. -/
inductive Cont where
  | flush (delta : Content)
  | upload (old : Bool)
  | complete (uuid : Nat)
  deriving DecidableEq, Repr

/-- Where the flusher task is. -/
inductive Pc where
  /-- in the `select!` (stats.rs:134-162) -/
  | idle
  /-- panicked -/
  | dead
  /-- returned after shutdown -/
  | stopped
  /-- in `retain` (stats.rs:271-279) over the static (`false`) or the dynamic (`true`) collector, before `snap` of the
  first metric of the list -/
  | snap (k : Bool) (todo : List (Id × Nat)) (delta : Content)
  /-- between `snap`, which found nothing, and `multiple_references` (273) -/
  | check (k : Bool) (id : Id) (cell : Nat) (todo : List (Id × Nat)) (delta : Content)
  /-- at `get_initialized` (file_manager.rs:182-192) -/
  | start (c : Cont)
  /-- reading the index (195-200), removing the directory (205), creating it (206) -/
  | initRead (c : Cont)
  | initRm (c : Cont)
  | initMk (c : Cont)
  /-- `get_or_create_snapshot`: the decision (239-257), deleting the oldest file (260), writing the index (271), reading
  the file back (281-292) -/
  | decide (delta : Content)
  | delOldest (delta : Content)
  | writeIdx (delta : Content)
  | readBack (delta : Content)
  /-- `write_snapshot` (319-336); `readOk`: `old` was read from the file -/
  | writeSnap (name uuid : Nat) (readOk : Bool) (old delta : Content)
  /-- the end of `remove_empty_snapshot` (313) -/
  | writeIdxEmpty
  /-- `get_or_create_pending_upload`: the head of the loop (346-369), writing the index (371), reading the file
  (376-381), deleting it (160-164), writing the index (174) -/
  | upHead (old : Bool)
  | upWriteIdx (old : Bool)
  | upRead (old : Bool)
  | upDel (old : Bool)
  | upDelIdx (old : Bool)
  /-- `complete_pending_upload`: the comparison (415-427), deleting the file, writing the index -/
  | complete (uuid : Nat)
  | compDel (uuid : Nat)
  | compIdx (uuid : Nat)
  deriving DecidableEq, Repr

/-- Why metrics were lost. -/
inductive Reason where
  /-- the oldest file was deleted because there were too many -/
  | limit
  /-- a file (or the index) could not be read -/
  | unreadable
  /-- a file system operation of a flush failed -/
  | writeFailed
  /-- the type of the metric changed between two flushes -/
  | typeClash
  /-- the same name in both collectors -/
  | duplicate
  /-- incremented, and its last handle dropped, between `snap` and `multiple_references` -/
  | race
  /-- the process died -/
  | crash
  /-- the task panicked -/
  | panic
  /-- files were damaged from outside -/
  | damage
  deriving DecidableEq, Repr

/-- A metrics upload handed to the API: identifier, content and period (file_manager.rs:382-395). -/
structure Upload where
  uuid : Nat
  content : Content
  start : Nat
  stop : Option Nat
  deriving DecidableEq, Repr

structure St where
  /-- every metric ever created, with its name; `Arc`s are positions in this list -/
  cells : List (Id × Metric)
  /-- the metrics map of the static collector and of the dynamic collector -/
  stat : List (Id × Nat)
  dyn : List (Id × Nat)
  /-- the handles (`Arc` clones) other threads hold, one entry per handle -/
  handles : List Nat
  fm : FmState
  /-- the index in memory -/
  idx : List PFile
  pc : Pc
  /-- the upload whose response is awaited (`upload_rx`, stats.rs:132) -/
  inflight : Option Nat
  /-- the disk -/
  dIndex : IndexFile
  files : List (Nat × Option File)
  /-- the next unused file name -/
  fresh : Nat
  /-- ghost: everything recorded; uploads sent; metrics of acknowledged files; metrics lost -/
  issued : Content
  uploads : List Upload
  acked : List (Nat × Content)
  dropped : List (Reason × Content)
  deriving DecidableEq, Repr

def St.init : St :=
  ⟨[], [], [], [], .uninit, [], .idle, none, .missing, [], 0, [], [], [], []⟩

inductive Out where
  | ok
  /-- the operation fails without effect -/
  | fail
  /-- a write that fails half-way and leaves the file unreadable (for other operations: as `fail`) -/
  | torn
  deriving DecidableEq, Repr

/-- What a step of the task meets: the result of the file system operation, the clock, the two runtime flags, and
whether the channel to the API is open. -/
structure Env where
  out : Out := .ok
  now : Nat := 0
  window : Nat := 0
  max : Nat := 10
  sendOk : Bool := true
  deriving DecidableEq, Repr

/-! ### Files -/

def getFile (n : Nat) : List (Nat × Option File) → Option (Option File)
  | [] => none
  | e :: fs => if e.1 = n then some e.2 else getFile n fs

def delFile (n : Nat) (fs : List (Nat × Option File)) : List (Nat × Option File) := fs.filter fun e => e.1 ≠ n

def putFile (n : Nat) (f : Option File) (fs : List (Nat × Option File)) : List (Nat × Option File) :=
  (n, f) :: delFile n fs

/-- The metrics in a file. -/
def fileContent : Option File → Content
  | some f => f.content
  | none => []

/-- The metrics in the file of this name. -/
def contentAt (n : Nat) (fs : List (Nat × Option File)) : Content :=
  match getFile n fs with
  | some f => fileContent f
  | none => []

/-- The metrics in all files. -/
def allFiles (fs : List (Nat × Option File)) : Content := (fs.map fun e => fileContent e.2).flatten

/-! ### Steps -/

def St.goto (s : St) (pc : Pc) : St := { s with pc := pc }
def St.lose (s : St) (r : Reason) (c : Content) : St := { s with dropped := (r, c) :: s.dropped }

def St.coll (s : St) : Bool → List (Id × Nat)
  | false => s.stat
  | true => s.dyn
def St.setColl (s : St) : Bool → List (Id × Nat) → St
  | false, l => { s with stat := l }
  | true, l => { s with dyn := l }

def findCell (id : Id) : List (Id × Nat) → Option Nat
  | [] => none
  | e :: l => if e.1 = id then some e.2 else findCell id l

/-- Is the lock of this collector free?  `retain` holds it (bd-client-stats-store/src/lib.rs:517-525). -/
def Pc.unlocked : Pc → Bool → Bool
  | .snap k _ _, k' => k != k'
  | .check k _ _ _ _, k' => k != k'
  | _, _ => true

inductive GetResult where
  | handle (cell : Nat)
  | changedType
  | overflow
  | blocked
  deriving DecidableEq, Repr

/-- `get_common` and `counter_with_labels`/`histogram` (bd-client-stats-store/src/lib.rs:297-378).  `limit` is the
limit in force, `none` for the static collector. -/
def St.get (s : St) (k : Bool) (id : Id) (kind : Kind) (limit : Option Nat) : St × GetResult :=
  if s.pc.unlocked k then
    match findCell id (s.coll k) with
    | some c => match s.cells[c]? with
      | some e => if e.2.kind = kind then ({ s with handles := c :: s.handles }, .handle c) else (s, .changedType)
      | none => (s, .changedType)
    | none =>
      if limit.all fun l => (s.coll k).length < l then
        ({ s with cells := s.cells ++ [(id, Metric.new kind)], handles := s.cells.length :: s.handles }.setColl k
          ((id, s.cells.length) :: s.coll k), .handle s.cells.length)
      else (s, .overflow)
  else (s, .blocked)

/-- Record something: `inc_by` (109-111) or `observe` (220-222) through a handle. -/
inductive Rec where
  | inc (n : Nat)
  | observe (v : Val)
  deriving DecidableEq, Repr

def Metric.record : Metric → Rec → Option Metric
  | .counter n, .inc a => some (.counter (n + a))
  | .hist h, .observe v => some (.hist (h.accept v))
  | _, _ => none

def Rec.metric : Rec → Metric
  | .inc n => .counter n
  | .observe v => .hist (.inline [v])

/-- An increment or an observation through a handle that is held. -/
def St.record (s : St) (c : Nat) (r : Rec) : St :=
  if c ∈ s.handles then
    match s.cells[c]? with
    | some e => match e.2.record r with
      | some m => { s with cells := s.cells.set c (e.1, m), issued := (e.1, r.metric) :: s.issued }
      | none => s
    | none => s
  else s

/-- The task panics. -/
def St.die (s : St) : St := s.goto .dead

/-- An operation of the file manager returns an error: the flush reports it and the delta is gone (stats.rs:244-249),
the upload gives up (300-312), after a failed completion the next upload is tried all the same (352-364). -/
def St.fail (s : St) : Cont → St
  | .flush d => (s.lose .writeFailed d).goto .idle
  | .upload _ => s.goto .idle
  | .complete _ => s.goto (.start (.upload true))

/-- The file manager is initialized: go on with the operation. -/
def St.enter (s : St) : Cont → St
  | .flush d => s.goto (.decide d)
  | .upload o => s.goto (.upHead o)
  | .complete u => s.goto (.complete u)

/-- What the panic of the task takes with it. -/
def Cont.delta : Cont → Content
  | .flush d => d
  | _ => []

/-- `get_initialized` (file_manager.rs:182-192): the file system is taken out of the option. -/
def St.start (s : St) (c : Cont) : St :=
  match s.fm with
  | .ready => s.enter c
  | .uninit => { s with fm := .taken }.goto (.initRead c)
  | .taken => (s.lose .panic c.delta).die

/-- The merge and what follows it in `merge_delta_snapshot_to_disk` (stats.rs:176-226): an empty result is removed from
the index (file_manager.rs:303-312), otherwise it is written. -/
def St.merge (s : St) (f : PFile) (uuid : Nat) (readOk : Bool) (old delta : Content) : St :=
  if (mergeAll old delta).1.isEmpty then
    { s with idx := s.idx.dropLast }.goto .writeIdxEmpty
  else s.goto (.writeSnap f.name uuid readOk old delta)

/-- Writing the index (140-157). -/
def St.writeIndex (s : St) : Out → St
  | .ok => { s with dIndex := .good s.idx }
  | .fail => s
  | .torn => { s with dIndex := .unreadable }

/-- The last file is too old, or closed (239-257). -/
def mustCreate (e : Env) (idx : List PFile) : Bool :=
  match idx.getLast? with
  | none => true
  | some f => f.stop.isSome || f.start + e.window ≤ e.now

/-- The last file is closed if it is too old (250). -/
def closeLast (e : Env) (idx : List PFile) : List PFile :=
  match idx.getLast? with
  | none => idx
  | some f => if f.stop.isNone && f.start + e.window ≤ e.now then idx.dropLast ++ [{ f with stop := some e.now }] else idx

/-- A new file is entered into the index (264-270). -/
def St.push (s : St) (e : Env) : St :=
  { s with idx := s.idx ++ [⟨s.fresh, e.now, none⟩], fresh := s.fresh + 1 }

/-- One step of the flusher task from where it is. -/
def St.stepAt (s : St) (e : Env) (pc : Pc) : St :=
  match pc with
  | .idle | .dead | .stopped => s
  -- create_delta_snapshot (stats.rs:260-280)
  | .snap k [] d => if k then s.goto (.start (.flush d)) else s.goto (.snap true s.dyn d)
  | .snap k ((id, c) :: todo) d =>
    match s.cells[c]? with
    | none => s.goto (.snap k todo d)
    | some x =>
      match x.2.snap with
      | (none, _) => s.goto (.check k id c todo d)
      | (some m, m') =>
        ({ s with cells := s.cells.set c (x.1, m') }.lose .duplicate (addMetric id m d).2).goto
          (.snap k todo (addMetric id m d).1)
  | .check k id c todo d =>
    if c ∈ s.handles then s.goto (.snap k todo d)
    else
      match s.cells[c]? with
      | none => s.goto (.snap k todo d)
      | some x =>
        (({ s with cells := s.cells.set c (x.1, Metric.new x.2.kind) }.lose .race [x]).setColl k
          ((s.coll k).filter fun y => y.1 ≠ id)).goto (.snap k todo d)
  -- get_initialized (file_manager.rs:182-217)
  | .start c => s.start c
  | .initRead c =>
    match e.out, s.dIndex with
    | .ok, .good l => { s with fm := .ready, idx := l }.enter c
    | _, _ => s.goto (.initRm c)
  | .initRm c =>
    match e.out with
    | .ok => ({ s with files := [], dIndex := .missing }.lose .unreadable (allFiles s.files)).goto (.initMk c)
    | _ => s.fail c
  | .initMk c =>
    match e.out with
    | .ok => { s with fm := .ready, idx := [] }.enter c
    | _ => s.fail c
  -- get_or_create_snapshot (235-299)
  | .decide d =>
    if mustCreate e s.idx then
      if e.max ≤ s.idx.length then { s with idx := closeLast e s.idx }.goto (.delOldest d)
      else ({ s with idx := closeLast e s.idx }.push e).goto (.writeIdx d)
    else s.goto (.readBack d)
  | .delOldest d =>
    match s.idx with
    | [] => (s.lose .panic d).die
    | f :: rest =>
      match e.out with
      | .ok => (({ s with files := delFile f.name s.files, idx := rest }.lose .limit (contentAt f.name s.files)).push e).goto
          (.writeIdx d)
      | _ => s.fail (.flush d)
  | .writeIdx d =>
    match e.out with
    | .ok => match s.idx.getLast? with
      | some f => (s.writeIndex .ok).merge f f.name false [] d
      | none => s.fail (.flush d)
    | o => (s.writeIndex o).fail (.flush d)
  | .readBack d =>
    match s.idx.getLast? with
    | none => (s.lose .panic d).die
    | some f => match e.out, getFile f.name s.files with
      | .ok, some (some x) => s.merge f x.uuid true x.content d
      | _, _ => s.merge f f.name false [] d
  -- write_snapshot (319-336)
  | .writeSnap n u readOk old d =>
    match e.out with
    | .ok => (({ s with files := putFile n (some ⟨u, (mergeAll old d).1⟩) s.files }.lose .unreadable
        (if readOk then [] else contentAt n s.files)).lose .typeClash (mergeAll old d).2).goto .idle
    | .fail => s.fail (.flush d)
    | .torn => ({ s with files := putFile n none s.files }.lose .unreadable (contentAt n s.files)).fail (.flush d)
  | .writeIdxEmpty => (s.writeIndex e.out).goto .idle
  -- get_or_create_pending_upload (339-406)
  | .upHead old =>
    match s.idx with
    | [] => s.goto .idle
    | f :: rest =>
      if old && f.start + e.window > e.now then s.goto .idle
      else if f.stop.isNone then { s with idx := { f with stop := some e.now } :: rest }.goto (.upWriteIdx old)
      else s.goto (.upRead old)
  | .upWriteIdx old =>
    match e.out with
    | .ok => (s.writeIndex .ok).goto (.upRead old)
    | o => (s.writeIndex o).goto .idle
  | .upRead old =>
    match s.idx with
    | [] => s.die
    | f :: _ => match e.out, getFile f.name s.files with
      | .ok, some (some x) =>
        if e.sendOk then
          { s with uploads := s.uploads ++ [Upload.mk x.uuid x.content f.start f.stop], inflight := some x.uuid }.goto .idle
        else s.goto .idle
      | _, _ => s.goto (.upDel old)
  | .upDel old =>
    match s.idx with
    | [] => s.die
    | f :: rest => match e.out with
      | .ok => ({ s with files := delFile f.name s.files, idx := rest }.lose .unreadable (contentAt f.name s.files)).goto
          (.upDelIdx old)
      | _ => s.goto .idle
  | .upDelIdx old =>
    match e.out with
    | .ok => (s.writeIndex .ok).goto (.upHead old)
    | o => (s.writeIndex o).goto .idle
  -- complete_pending_upload (410-435), then upload_from_disk(true) (stats.rs:364)
  | .complete u =>
    match s.idx with
    | [] => s.die
    | f :: _ => if f.name ≠ u then s.goto (.start (.upload true)) else s.goto (.compDel u)
  | .compDel u =>
    match s.idx with
    | [] => s.die
    | f :: rest => match e.out with
      | .ok => { s with files := delFile f.name s.files, idx := rest,
                        acked := (u, contentAt f.name s.files) :: s.acked }.goto (.compIdx u)
      | _ => s.goto (.start (.upload true))
  | .compIdx _ => (s.writeIndex e.out).goto (.start (.upload true))

/-- One step of the flusher task. -/
def St.step (s : St) (e : Env) : St := s.stepAt e s.pc

/-- The metrics only the task holds. -/
def Pc.delta : Pc → Content
  | .snap _ _ d | .check _ _ _ _ d | .decide d | .delOldest d | .writeIdx d | .readBack d => d
  | .writeSnap _ _ _ _ d => d
  | .start c | .initRead c | .initRm c | .initMk c => c.delta
  | _ => []

/-- The file being written when the process dies with a write under way. -/
def St.tear (s : St) : St :=
  match s.pc with
  | .writeIdx _ | .writeIdxEmpty | .upWriteIdx _ | .upDelIdx _ | .compIdx _ => { s with dIndex := .unreadable }
  | .writeSnap n _ _ _ _ => { s with files := putFile n none s.files }.lose .unreadable (contentAt n s.files)
  | _ => s

/-- The process dies; a new one starts with nothing but the disk. -/
def St.crash (s : St) (torn : Bool) : St :=
  let t := if torn then s.tear else s
  { t.lose .crash (s.cells ++ s.pc.delta) with
    cells := [], stat := [], dyn := [], handles := [], fm := .uninit, idx := [], pc := .idle, inflight := none }

inductive Op where
  /-- another thread fetches a metric, records through a handle, drops a handle -/
  | get (k : Bool) (id : Id) (kind : Kind) (limit : Option Nat)
  | record (cell : Nat) (r : Rec)
  | release (cell : Nat)
  /-- the flush ticker, or a flush request -/
  | flush
  /-- the upload ticker -/
  | upload
  /-- the response to the upload under way; `false` also if there never will be one -/
  | response (success : Bool)
  | shutdown
  /-- the task goes on -/
  | task (e : Env)
  | crash (torn : Bool)
  /-- the index, or a file, is damaged (`true`) or lost -/
  | damageIndex (unreadable : Bool)
  | damageFile (n : Nat) (unreadable : Bool)
  deriving DecidableEq, Repr

/-- `periodic_flush` (stats.rs:131-164) and everything around it. -/
def St.apply (s : St) : Op → St
  | .get k id kind limit => (s.get k id kind limit).1
  | .record c r => s.record c r
  | .release c => { s with handles := s.handles.erase c }
  | .flush => if s.pc = .idle then s.goto (.snap false s.stat []) else s
  | .upload => if s.pc = .idle ∧ s.inflight = none then s.goto (.start (.upload false)) else s
  | .response success =>
    if s.pc = .idle then
      match s.inflight with
      | some u => if success then { s with inflight := none }.goto (.start (.complete u)) else { s with inflight := none }
      | none => s
    else s
  | .shutdown => if s.pc = .idle then s.goto .stopped else s
  | .task e => s.step e
  | .crash torn => s.crash torn
  | .damageIndex b => if s.pc = .idle then { s with dIndex := if b then .unreadable else .missing } else s
  | .damageFile n b =>
    if s.pc = .idle then
      { s with files := if b then putFile n none s.files else delFile n s.files }.lose .damage (contentAt n s.files)
    else s

def St.run (s : St) (ops : List Op) : St := ops.foldl St.apply s

end Verif.Stats
