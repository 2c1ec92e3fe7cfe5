import Verif.Workflow.RestoreProps

/-!
C66: while the engine does not consider its state changed, the state is on disk.

`C66_partial`: as long as writes succeed.  A failed write is forgotten (`C66_failed_violated`).
-/
namespace Verif.Wf

theorem progress_false {s : Stats} (h : s.progress = false) :
    s.createdRuns = 0 ∧ s.stoppedRuns = 0 ∧ s.completedRuns = 0 ∧ s.matched = 0 ∧ s.resets = 0 := by
  unfold Stats.progress at h
  simp only [Bool.or_eq_false_iff, decide_eq_false_iff_not] at h
  omega

/-- A step of the loop in which nothing is created, stopped, completed, matched or reset leaves the run as it is. -/
theorem visit_quiet {c : Config} {log : Log} {limit before : Nat} {run : Run} {a : WfAcc}
    (h : (a.visit c log limit before run).stats.stoppedRuns = 0 ∧
      (a.visit c log limit before run).stats.completedRuns = 0 ∧ (a.visit c log limit before run).stats.matched = 0) :
    (a.stats.stoppedRuns = 0 ∧ a.stats.completedRuns = 0 ∧ a.stats.matched = 0) ∧
      (a.visit c log limit before run).done = run :: a.done := by
  unfold WfAcc.visit at h ⊢
  split at h
  · rename_i hb
    rw [if_pos hb]
    exact ⟨h, rfl⟩
  · rename_i hb
    rw [if_neg hb]
    have hs : ∀ (x : WfAcc), x = (a.incorporate (run.process c log).2).settle limit (run.process c log).1 (run.process c log).2 →
        x.stats.stoppedRuns = 0 ∧ x.stats.completedRuns = 0 ∧ x.stats.matched = 0 →
        (a.stats.stoppedRuns = 0 ∧ a.stats.completedRuns = 0 ∧ a.stats.matched = 0) ∧ x.done = run :: a.done := by
      intro x hx h
      unfold WfAcc.settle at hx
      split at hx
      · rw [hx] at h
        exact absurd h.1 (by simp)
      · split at hx
        · rw [hx] at h
          exact absurd h.2.1 (by simp)
        · rw [hx] at h ⊢
          have h1 : a.stats.stoppedRuns = 0 := h.1
          have h2 : a.stats.completedRuns = 0 := h.2.1
          have h3 : a.stats.matched + (run.process c log).2.matched = 0 := h.2.2
          refine ⟨⟨h1, h2, by omega⟩, ?_⟩
          show (run.process c log).1 :: a.done = run :: a.done
          rw [Run.process_quiet c log run (by omega)]
    split at h
    · rename_i he
      rw [if_pos he]
      generalize hx : (a.incorporate (run.process c log).2).settle limit (run.process c log).1 (run.process c log).2 = x at h ⊢
      have key : (x.exclusive c log before).done = x.done ∧ x.stats.stoppedRuns = 0 ∧ x.stats.completedRuns = 0 ∧
          x.stats.matched = 0 := by
        unfold WfAcc.exclusive at h ⊢
        split at h
        · rename_i h1
          rw [if_pos h1]
          split at h
          · rename_i h2
            rw [if_pos h2]
            split at h
            · exact absurd h.1 (by simp)
            · exact ⟨rfl, h⟩
          · rename_i h2
            rw [if_neg h2]
            exact ⟨rfl, h⟩
        · rename_i h1
          rw [if_neg h1]
          exact ⟨rfl, h⟩
      rw [key.1]
      exact hs x hx.symm key.2
    · rename_i he
      rw [if_neg he]
      exact hs _ rfl h

theorem loop_quiet {c : Config} {log : Log} {limit : Nat} {a : WfAcc} (hd : a.done = []) : ∀ (rs : List Run) (i : Nat),
    (loop c log limit a i rs).stats.stoppedRuns = 0 ∧ (loop c log limit a i rs).stats.completedRuns = 0 ∧
      (loop c log limit a i rs).stats.matched = 0 → (loop c log limit a i rs).done = rs
  | [], _, _ => hd
  | r :: rs, i, h => by
    unfold loop at h ⊢
    obtain ⟨h1, h2⟩ := visit_quiet h
    rw [h2, loop_quiet hd rs (i + 1) h1]

theorem visit_created (c : Config) (log : Log) (limit before : Nat) (run : Run) (a : WfAcc) :
    (a.visit c log limit before run).stats.createdRuns = a.stats.createdRuns := by
  have hs : ((a.incorporate (run.process c log).2).settle limit (run.process c log).1
      (run.process c log).2).stats.createdRuns = a.stats.createdRuns := by
    unfold WfAcc.settle
    split
    · rfl
    · split <;> rfl
  unfold WfAcc.visit
  split
  · rfl
  · split
    · rw [← hs]
      unfold WfAcc.exclusive
      split
      · split
        · split <;> rfl
        · rfl
      · rfl
    · exact hs

theorem loop_created (c : Config) (log : Log) (limit : Nat) (a : WfAcc) : ∀ (rs : List Run) (i : Nat),
    (loop c log limit a i rs).stats.createdRuns = a.stats.createdRuns
  | [], _ => rfl
  | r :: rs, i => by
    unfold loop
    rw [visit_created, loop_created c log limit a rs (i + 1)]

/-- A workflow that made no progress has the runs it had. -/
theorem processRuns_quiet {c : Config} {log : Log} {limit count : Nat} {runs : List Run}
    (h : (processRuns c limit log count runs).stats.progress = false) :
    (processRuns c limit log count runs).done = runs := by
  obtain ⟨h1, h2, h3, h4, _⟩ := progress_false h
  unfold processRuns at *
  rw [loop_created] at h1
  rw [loop_quiet rfl _ _ ⟨h2, h3, h4⟩]
  dsimp only at h1
  unfold prepare at h1 ⊢
  split
  · rename_i hn
    rw [if_pos hn] at h1
    unfold addRun at h1 ⊢
    split
    · rename_i hr
      rw [if_pos hr] at h1
      cases h1
    · rfl
  · rfl

theorem strip_initial {l : List Run} (h : l.all (·.initial) = true) : strip l = [] := by
  unfold strip
  rw [List.filter_eq_nil_iff]
  intro r hr
  simp [List.all_eq_true.1 h r hr]

/-- If processing a log does not mark the state as changed, what would be stored of the workflows is the same. -/
theorem processAll_stored {limit : Nat} {log : Log} : ∀ (l : List (Workflow × Config)) (count : Nat),
    (processAll limit log count l).2.2.2 = false →
      (processAll limit log count l).1.map (·.optimized) = (l.map (·.1)).map (·.optimized)
  | [], _, _ => rfl
  | (w, c) :: l, count, h => by
    unfold processAll at h ⊢
    dsimp only at h ⊢
    simp only [Bool.or_eq_false_iff] at h
    simp only [List.map_cons]
    rw [processAll_stored l _ h.2]
    congr 1
    unfold Workflow.optimized
    dsimp only
    have : strip (processRuns c limit log count w.runs).done = strip w.runs := by
      cases hp : (processRuns c limit log count w.runs).stats.progress with
      | false => rw [processRuns_quiet hp]
      | true =>
        have h1 := h.1
        rw [hp] at h1
        simp only [Bool.true_and, Bool.not_eq_false', Bool.and_eq_true] at h1
        rw [strip_initial h1.1, strip_initial h1.2]
    unfold strip at this
    rw [this]

theorem zip_fst_paired {P : Workflow → Config → Prop} : ∀ {ws : List Workflow} {cs : List Config}, Paired P ws cs →
    (ws.zip cs).map (·.1) = ws
  | [], [], _ => rfl
  | _ :: _, _ :: _, ⟨_, h⟩ => by simp only [List.zip_cons_cons, List.map_cons]; rw [zip_fst_paired h]

theorem stored_eq {ws vs : List Workflow} (h : ws.map (·.optimized) = vs.map (·.optimized)) : stored ws = stored vs := by
  unfold stored
  rw [h]

/-- Removing workflows without progress does not change what would be stored. -/
theorem stored_filter (keep : Workflow × Config → Bool) : ∀ (l : List (Workflow × Config)),
    (l.any fun x => !keep x && !x.1.initial) = false → stored ((l.filter keep).map (·.1)) = stored (l.map (·.1))
  | [], _ => rfl
  | x :: l, h => by
    simp only [List.any_cons, Bool.or_eq_false_iff] at h
    have ih := stored_filter keep l h.2
    simp only [List.filter_cons]
    split
    · simp only [List.map_cons]
      unfold stored at ih ⊢
      simp only [List.map_cons, List.filter_cons]
      rw [ih]
    · rename_i hk
      rw [ih]
      have hi : x.1.initial = true := by
        have := h.1
        rw [Bool.not_eq_true] at hk
        rw [hk] at this
        simpa using this
      unfold stored
      simp only [List.map_cons, List.filter_cons]
      have : x.1.optimized.runs.isEmpty = true := by
        show (strip x.1.runs).isEmpty = true
        rw [strip_initial hi]
        rfl
      rw [this]
      rfl

theorem stored_append (ws : List Workflow) (i : String) : stored (ws ++ [{ id := i, runs := [] }]) = stored ws := by
  unfold stored
  simp [Workflow.optimized]

theorem fold_stored : ∀ (l : List Config) (e : Engine),
    stored (l.foldl (fun e c => e.addWorkflow { id := c.id } c) e).workflows = stored e.workflows
  | [], _ => rfl
  | c :: l, e => by
    simp only [List.foldl_cons]
    rw [fold_stored l]
    have : (e.addWorkflow { id := c.id } c).workflows = e.workflows ++ [{ id := c.id, runs := [] }] := by
      unfold Engine.addWorkflow
      simp [dropRuns]
    rw [this, stored_append]

/-- A step that is not a restart, a log with a session, an update that leaves the buffers of the actions alone, a write
that succeeds. -/
def faithful (e : Engine) : Op → Prop
  | .start .. => False
  | .update ec => stdPending ec.triggers e.pending = e.pending ∧ stdStreams ec.triggers ec.conts e.streams = e.streams
  | .log l _ _ => l.session ≠ ""
  | .persist _ out => out = .ok
  | _ => True

def Faithful : Engine → List Op → Prop
  | _, [] => True
  | e, op :: ops => faithful e op ∧ Faithful (e.apply op) ops

structure Kept (e : Engine) : Prop where
  session : e.session ≠ ""
  paired : Paired (fun _ _ => True) e.workflows e.configs
  clean : e.dirty = false → e.disk = some e.saved

theorem saved_eq {a b : Engine} (h1 : a.session = b.session) (h2 : stored a.workflows = stored b.workflows)
    (h3 : a.pending = b.pending) (h4 : a.streams = b.streams) : a.saved = b.saved := by
  unfold Engine.saved
  unfold stored at h2
  rw [h1, h2, h3, h4]

theorem retain_same {session : String} : ∀ {l : List (Stream × Bool)}, (retainStreams session l).length = l.length →
    retainStreams session l = l.map (·.1)
  | l, h => by
    unfold retainStreams at h ⊢
    rw [List.length_map] at h
    rw [List.filter_eq_self.2]
    intro x hx
    exact List.length_filter_eq_length_iff.1 h x hx

theorem countStreams_quiet {dests : List String} {l : List Stream} (h : l.any (·.applies dests) = false) :
    countStreams dests l = l := by
  unfold countStreams
  conv => rhs; rw [← List.map_id l]
  apply List.map_congr_left
  intro s hs
  rw [if_neg (by have := List.any_eq_false.1 h s hs; exact this)]
  rfl

theorem Kept.apply {e : Engine} (h : Kept e) (op : Op) (ho : faithful e op) : Kept (e.apply op) := by
  cases op with
  | start limit readable oks ec => cases ho
  | update ec =>
    have hu : stored ((e.removeWorkflows (kept ec.configs)).workflows) = stored e.workflows ∨
        (e.removeWorkflows (kept ec.configs)).dirty = true := by
      cases hd : (e.removeWorkflows (kept ec.configs)).dirty with
      | true => exact .inr rfl
      | false =>
        left
        unfold Engine.removeWorkflows at hd ⊢
        dsimp only at hd ⊢
        rw [stored_filter _ _ (Bool.or_eq_false_iff.1 hd).2, zip_fst_paired h.paired]
    obtain ⟨k, a, b, hk⟩ := fold_rest (ec.configs.filter fun c =>
      !((e.removeWorkflows (kept ec.configs)).workflows.any (·.id = c.id))) (e.removeWorkflows (kept ec.configs))
    have hst := fold_stored (ec.configs.filter fun c =>
      !((e.removeWorkflows (kept ec.configs)).workflows.any (·.id = c.id))) (e.removeWorkflows (kept ec.configs))
    have hpr : ∀ (l : List Config) (e : Engine), Paired (fun _ _ => True) e.workflows e.configs →
        Paired (fun _ _ => True) (l.foldl (fun e c => e.addWorkflow { id := c.id } c) e).workflows
          (l.foldl (fun e c => e.addWorkflow { id := c.id } c) e).configs := by
      intro l
      induction l with
      | nil => intro e h; exact h
      | cons c l ih => intro e h; exact ih _ (Paired.append h trivial)
    have hp := hpr (ec.configs.filter fun c =>
      !((e.removeWorkflows (kept ec.configs)).workflows.any (·.id = c.id))) (e.removeWorkflows (kept ec.configs))
      (Paired.filter _ h.paired)
    have he : e.update ec = { (e.updateWorkflows ec.configs) with
        triggers := ec.triggers, conts := ec.conts, pending := stdPending ec.triggers (e.updateWorkflows ec.configs).pending,
        streams := stdStreams ec.triggers ec.conts (e.updateWorkflows ec.configs).streams } := rfl
    have hw : e.updateWorkflows ec.configs = (ec.configs.filter fun c =>
      !((e.removeWorkflows (kept ec.configs)).workflows.any (·.id = c.id))).foldl
        (fun e c => e.addWorkflow { id := c.id } c) (e.removeWorkflows (kept ec.configs)) := rfl
    show Kept (e.update ec)
    rw [he, hw, hk]
    rw [hk] at hst hp
    refine ⟨h.session, hp, ?_⟩
    intro hd
    have hd' : (e.removeWorkflows (kept ec.configs)).dirty = false := hd
    rcases hu with hu | hu
    · have hc := h.clean (by
        unfold Engine.removeWorkflows at hd'
        exact (Bool.or_eq_false_iff.1 hd').1)
      show e.disk = _
      rw [hc]
      congr 1
      refine saved_eq ?_ ?_ ?_ ?_
      · rfl
      · exact hu.symm.trans hst.symm
      · exact ho.1.symm
      · exact ho.2.symm
    · rw [hu] at hd'; cases hd'
  | log l dests v =>
    have hl : l.session ≠ "" := ho
    have h' : Kept (e.enter l.session) := by
      unfold Engine.enter
      rw [if_neg h.session]
      split
      · exact ⟨hl, Paired.map (fun w => { w with runs := [] }) (fun _ _ h => h) h.paired, by intro h; cases h⟩
      · exact h
    show Kept ((e.enter l.session).handle l dests v).1
    generalize e.enter l.session = e at h'
    unfold Engine.handle
    split
    · exact h'
    · have hp : ∀ (ws : List Workflow) (cs : List Config) (k : Nat), Paired (fun _ _ => True) ws cs →
          Paired (fun _ _ => True) (processAll e.limit l k (ws.zip cs)).1 cs := by
        intro ws
        induction ws with
        | nil => intro cs k h; cases cs with
          | nil => trivial
          | cons c cs => cases h
        | cons w ws ih => intro cs k h; cases cs with
          | nil => cases h
          | cons c cs => exact ⟨trivial, ih cs _ h.2⟩
      refine ⟨h'.session, hp _ _ _ h'.paired, ?_⟩
      intro hd
      simp only [Bool.or_eq_false_iff, Bool.not_eq_false', List.isEmpty_iff] at hd
      obtain ⟨⟨⟨hd1, hd2⟩, hd3⟩, hd4⟩ := hd
      show e.disk = _
      rw [h'.clean hd1]
      congr 1
      refine saved_eq ?_ ?_ ?_ ?_
      · rfl
      · apply stored_eq
        show _ = (processAll e.limit l e.count (e.workflows.zip e.configs)).1.map _
        rw [processAll_stored _ _ hd2, zip_fst_paired h'.paired]
      · show e.pending = addNew e.pending _
        rw [hd4]
        rfl
      · unfold processStreams at hd3 ⊢
        dsimp only at hd3 ⊢
        simp only [Bool.or_eq_false_iff, bne_eq_false_iff_eq] at hd3
        rw [countStreams_quiet hd3.2, retain_same hd3.1, List.map_map]
        exact (List.map_id _).symm
  | approved q ok =>
    have : ∃ d f r s p, e.approved q ok = { e with dirty := true, flushes := f, requests := r, streams := s, pending := p } ∧
        d = true := by
      unfold Engine.approved
      dsimp only
      split
      · split
        · exact ⟨true, _, _, _, _, rfl, rfl⟩
        · exact ⟨true, _, _, _, _, rfl, rfl⟩
      · exact ⟨true, _, _, _, _, rfl, rfl⟩
    obtain ⟨_, f, r, s, p, hk, _⟩ := this
    show Kept (e.approved q ok)
    rw [hk]
    exact ⟨h.session, h.paired, by intro h; cases h⟩
  | rejected q => exact ⟨h.session, h.paired, by intro h; cases h⟩
  | flushed id => exact ⟨h.session, h.paired, h.clean⟩
  | persist due out =>
    have : out = .ok := ho
    subst this
    show Kept (e.persist due .ok)
    unfold Engine.persist
    split
    · exact ⟨h.session, h.paired, fun _ => rfl⟩
    · exact h

theorem Kept.run : ∀ (ops : List Op) {e : Engine}, Kept e → Faithful e ops → Kept (e.run ops)
  | [], _, h, _ => h
  | op :: ops, _, h, ho => by
    unfold Engine.run
    simp only [List.foldl_cons]
    exact Kept.run ops (h.apply op ho.1) ho.2

/-- C66.  Once the state has been written, over all later histories of one process in which writes succeed and updates
leave the buffers of the actions alone: whenever the engine does not consider its state changed, the disk holds it.
Missing: writes that fail. -/
theorem C66_partial (hist ops : List Op) (due : (({} : Engine).run hist).dirty = true)
    (hs : (({} : Engine).run hist).session ≠ "")
    (ho : Faithful ((({} : Engine).run hist).persist true .ok) ops) :
    let e := ((({} : Engine).run hist).persist true .ok).run ops
    e.dirty = false → e.disk = some e.saved := by
  have hp : Paired (fun _ _ => True) (({} : Engine).run hist).workflows (({} : Engine).run hist).configs :=
    Paired.mono (fun _ _ _ => trivial) (Good.run (cs := histConfigs hist) (P := fun _ _ => True) (D := fun _ => True)
      ⟨fun _ _ => trivial, fun _ _ _ _ _ _ _ => trivial, fun _ _ _ _ => trivial, fun _ _ _ _ _ => trivial⟩ hist Good.init
      mem_histConfigs).1
  generalize ({} : Engine).run hist = e at due hs ho hp ⊢
  have hk : e.persist true .ok = { e with dirty := false, disk := some e.saved } := by
    unfold Engine.persist
    rw [due]
    rfl
  rw [hk] at ho ⊢
  exact (Kept.run ops (e := { e with dirty := false, disk := some e.saved }) ⟨hs, hp, fun _ => rfl⟩ ho).clean

/-! ### Examples and violations -/

namespace Ex
/-- matcher 1 and matcher 2 in turn, for ever; at most three matched logs -/
def circle : Config :=
  { id := "o", exclusive := true, maxMatched := some 3,
    states := [⟨"0", [⟨1, .logMatch 1 1, [], []⟩]⟩, ⟨"1", [⟨0, .logMatch 2 1, [act "b"], []⟩]⟩] }
/-- in the middle of an exclusive workflow, stored -/
def middle : List Op := [start 9 [single], log [1], log [2], .persist true .ok]
def middleEngine : Engine := ({} : Engine).run middle
end Ex

example : ∀ c ∈ histConfigs Ex.middle, c.noReturn := by
  intro c hc i tr htr
  have : c = Ex.single := by simpa [histConfigs, Op.configs, Ex.middle, Ex.start, Ex.log] using hc
  subst this
  match i, htr with
  | 0, h => rw [List.mem_singleton.1 h]; decide
  | 1, h => rw [List.mem_singleton.1 h]; decide
  | 2, h => cases h
example : AtRest Ex.middleEngine :=
  ⟨by decide +kernel, by decide +kernel, by decide +kernel, (by
    have : Ex.middleEngine.flushes = [] := by decide +kernel
    rw [this]
    intro i
    rfl), by decide +kernel⟩
example : SmoothRun Ex.middleEngine [Ex.log [], Ex.log [2]] :=
  ⟨by show Engine.hits _ _ = 0; decide +kernel, by show Engine.hits _ _ = 0; decide +kernel, trivial⟩
/-- The restarted engine finishes what the old one began. -/
example : ((Ex.middleEngine.start 9 true [] Ex.middleEngine.cfg).run [Ex.log [], Ex.log [2]]).emitted =
    [⟨"workflows_dyn:action", [("_id", "b")], 1⟩] := by decide +kernel
example : Faithful (({} : Engine).run Ex.middle) [Ex.log [2], .persist true .ok, Ex.log []] :=
  ⟨by show "s" ≠ ""; decide, rfl, by show "s" ≠ ""; decide, trivial⟩

/-- A run that has come back to its first state is not stored: the old engine stops it after three matched logs, the
restarted one starts to count again. -/
theorem C37_return_violated :
    let o := ({} : Engine).run [Ex.start 9 [Ex.circle], Ex.log [1], Ex.log [2], .persist true .ok]
    let n := o.start 9 true [] o.cfg
    o.disk = some o.saved ∧ (o.run [Ex.log [1], Ex.log [2]]).emitted = o.emitted ∧
      (n.run [Ex.log [1], Ex.log [2]]).emitted = [⟨"workflows_dyn:action", [("_id", "b")], 1⟩] := by decide +kernel

namespace Ex
/-- matcher 1, then matcher 2 twice over, each way emitting on matcher 3 -/
def forkThenEmit : Config :=
  { id := "f", exclusive := true,
    states := [⟨"0", [⟨1, .logMatch 1 1, [], []⟩]⟩, ⟨"1", [⟨2, .logMatch 2 1, [], []⟩, ⟨2, .logMatch 2 1, [], []⟩]⟩,
      ⟨"2", [⟨3, .logMatch 3 1, [act "b"], []⟩]⟩, ⟨"3", []⟩] }
/-- waits for matcher 9 -/
def waiting : Config :=
  { id := "w", exclusive := true, states := [⟨"0", [⟨1, .logMatch 9 1, [], []⟩]⟩, ⟨"1", []⟩] }
end Ex

/-- The limit for traversals is hit at other times: the waiting run of the second workflow is counted by the old engine,
where the first workflow cannot fork any more; the restarted one counts it only after the fork. -/
theorem C37_limit_violated :
    let o := ({} : Engine).run [Ex.start 3 [Ex.forkThenEmit, Ex.waiting], Ex.log [1], .persist true .ok]
    let n := o.start 3 true [] o.cfg
    o.disk = some o.saved ∧ o.total ≤ 3 ∧ (o.run [Ex.log [2], Ex.log [3]]).emitted = o.emitted ∧
      (n.run [Ex.log [2], Ex.log [3]]).emitted = [⟨"workflows_dyn:action", [("_id", "b")], 1⟩] := by decide +kernel

/-- A flush that was going on is forgotten: the action that was to stream until it is over is gone at the next log. -/
theorem C37_flushing_violated :
    let o := ({} : Engine).run [.start 9 true [] ⟨[Ex.flushing], ["t"], ["c"]⟩, Ex.log [1],
      .approved ⟨"fl", "s", ["t"], some ⟨["c"], some 1⟩⟩ true, .log { session := "s", time := 0, hits := [] } ["t"] {}, .persist true .ok]
    let n := o.start 9 true [] o.cfg
    o.disk = some o.saved ∧ (o.processLog { session := "s", time := 0, hits := [] } ["t"] {}).2.dests = ["c"] ∧
      (n.processLog { session := "s", time := 0, hits := [] } ["t"] {}).2.dests = ["t"] := by decide +kernel

/-- A write that fails clears the flag, so that no later write follows: the progress is lost with the process. -/
theorem C66_failed_violated :
    let e := ({} : Engine).run [Ex.start 9 [Ex.single], Ex.log [1], Ex.log [], .persist true .fail, Ex.log [],
      .persist true .ok]
    e.dirty = false ∧ e.disk = none ∧ e.saved.workflows = [⟨"x", [⟨[⟨1, [0], []⟩], 1, some 0⟩]⟩] := by decide +kernel

end Verif.Wf
