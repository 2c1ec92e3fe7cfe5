import Verif.Workflow.EngineLemmas

/-!
C33: the traversal limit.

The engine counts traversals itself.  It loses count when a run is stopped by its limit of matched logs after some of its
traversals were already replaced (workflow.rs:600-610 reports no created and no completed traversals, while
workflow.rs:143-146 subtracts the number of traversals the run has by then): `C33_counter_violated`,
`C33_limit_violated`.  This needs a workflow with a limit of matched logs and a state with two ways out.  For all other
configurations the property holds, over all histories: `C33_partial`.
-/
namespace Verif.Wf

/-- For each workflow identifier: no configuration under it limits the matched logs, or none has a state with two ways
out. -/
def Calm (cs : List Config) : Prop :=
  ∀ c ∈ cs, ∀ c' ∈ cs, c.id = c'.id → c.maxMatched = none ∨ ∀ s ∈ c'.states, s.transitions.length ≤ 1

def SmoothFor (cs : List Config) (id : String) (runs : List Run) : Prop :=
  ∀ c ∈ cs, c.id = id → ∀ r ∈ runs, Smooth c r

theorem keeps_smooth {cs : List Config} (hc : Calm cs) :
    Keeps cs (fun c runs => SmoothFor cs c.id runs) (fun w => SmoothFor cs w.id w.runs) where
  empty := by intro c _ c' _ _ r hr; cases hr
  step := by
    intro c hcs limit log count runs h c' hc' hid x hx
    obtain ⟨r, hr, hx⟩ := processRuns_done x hx
    by_cases hm : c'.maxMatched = none
    · exact .inl hm
    right
    have hl : c.linear := by
      rcases hc c' hc' c hcs hid with h | h
      · exact absurd h hm
      · exact h
    have hr1 : r.traversals.length ≤ 1 := by
      rcases hr with rfl | hr
      · exact Run.new_length c
      · rcases h c' hc' hid r hr with h | h
        · exact absurd h hm
        · exact h
    rcases hx with rfl | ⟨rfl, _⟩
    · exact hr1
    · exact Nat.le_trans (Run.process_small hl) hr1
  save := by
    intro c hcs runs h c' hc' hid r hr
    exact h c' hc' hid r (List.mem_filter.1 hr).1
  load := by
    intro c hcs runs k h c' hc' hid r hr
    exact h c' hc' hid r (List.mem_of_mem_take hr)

/-- The counter is the number of traversals, and within the limit. -/
def Counted (e : Engine) : Prop := e.count = e.total ∧ e.count ≤ e.limit

theorem dropRuns_fits (limit count : Nat) (h : count ≤ limit) : ∀ (n : Nat) (l : List Run), l.length ≤ n →
    travCount l + count > limit → travCount (dropRuns limit count n l) + count ≤ limit
  | 0, l, hn, hgt => by
    have : l = [] := List.length_eq_zero_iff.1 (by omega)
    subst this
    simp [travCount] at hgt
    omega
  | n + 1, [], hn, hgt => by
    simp [travCount] at hgt
    omega
  | n + 1, r :: l, hn, hgt => by
    unfold dropRuns
    split
    · rename_i h'; cases h'
    · split
      · assumption
      · rename_i hno
        exact dropRuns_fits limit count h n _ (by simp at hn ⊢; omega) (by omega)

theorem Counted.addWorkflow {e : Engine} (h : Counted e) (w : Workflow) (c : Config) : Counted (e.addWorkflow w c) := by
  obtain ⟨h1, h2⟩ := h
  have hfit : travCount (if travCount w.runs + e.count > e.limit then dropRuns e.limit e.count w.runs.length w.runs
      else w.runs) + e.count ≤ e.limit := by
    split
    · rename_i hgt
      exact dropRuns_fits e.limit e.count h2 _ _ (Nat.le_refl _) hgt
    · omega
  unfold Engine.addWorkflow Counted Engine.total
  dsimp only
  unfold Engine.total at h1
  simp only [List.map_append, List.sum_append, List.map_cons, List.map_nil, List.sum_cons, List.sum_nil]
  constructor <;> omega

theorem Counted.addWorkflows : ∀ (l : List Config) (saved : List Workflow) (e : Engine), Counted e →
    Counted (e.addWorkflows saved l)
  | [], _, _, h => h
  | c :: l, saved, e, h => by
    unfold Engine.addWorkflows
    split
    · exact Counted.addWorkflows l _ _ (h.addWorkflow _ _)
    · exact Counted.addWorkflows l _ _ (h.addWorkflow _ _)

theorem Counted.start (e : Engine) (limit : Nat) (readable : Bool) (oks : List Bool) (ec : EngineCfg) :
    Counted (e.start limit readable oks ec) := by
  have h0 : ∀ x : Engine, x.workflows = [] → x.count = 0 → Counted x := by
    intro x hw hc
    unfold Counted Engine.total
    rw [hw, hc]
    exact ⟨rfl, Nat.zero_le _⟩
  unfold Engine.start
  dsimp only
  split
  · rename_i s _
    exact Counted.addWorkflows ec.configs s.workflows
      { limit := limit, triggers := ec.triggers, conts := ec.conts, disk := if readable then e.disk else none,
        pending := stdPending ec.triggers s.pending, streams := stdStreams ec.triggers ec.conts s.streams,
        session := s.session } (h0 _ rfl rfl)
  · exact Counted.addWorkflows _ _ _ (h0 _ rfl rfl)

theorem filter_split (keep : Workflow × Config → Bool) : ∀ (ws : List Workflow) (l : List Config),
    ws.length = l.length →
    (ws.map fun w => travCount w.runs).sum =
      ((((ws.zip l).filter keep).map (·.1)).map fun w => travCount w.runs).sum +
        (((ws.zip l).filter (!keep ·)).map fun x => travCount x.1.runs).sum
  | [], [], _ => rfl
  | w :: ws, c :: l, h => by
    have ih := filter_split keep ws l (by simpa using h)
    simp only [List.zip_cons_cons, List.filter_cons, List.map_cons, List.sum_cons]
    cases hk : keep (w, c) <;> simp <;> simp at ih <;> omega

theorem foldr_sub (n : Nat) : ∀ (l : List (Workflow × Config)),
    l.foldr (fun x m => m - travCount x.1.runs) n = n - (l.map fun x => travCount x.1.runs).sum
  | [] => by simp
  | x :: l => by
    have ih := foldr_sub n l
    simp only [List.foldr_cons, List.map_cons, List.sum_cons, ih]
    omega

theorem Counted.remove {e : Engine} (h : Counted e) (hl : e.workflows.length = e.configs.length)
    (keep : Workflow × Config → Bool) : Counted (e.removeWorkflows keep) := by
  obtain ⟨h1, h2⟩ := h
  have := filter_split keep e.workflows e.configs hl
  unfold Engine.removeWorkflows Counted Engine.total
  dsimp only
  rw [foldr_sub]
  unfold Engine.total at h1
  constructor <;> omega

theorem Counted.fold : ∀ (l : List Config) (e : Engine), Counted e →
    Counted (l.foldl (fun e c => e.addWorkflow { id := c.id } c) e)
  | [], _, h => h
  | _ :: l, _, h => Counted.fold l _ (h.addWorkflow _ _)

theorem Counted.update {e : Engine} (h : Counted e) (hl : e.workflows.length = e.configs.length) (ec : EngineCfg) :
    Counted (e.update ec) := Counted.fold _ _ (h.remove hl _)

theorem processAll_count {cs : List Config} (limit : Nat) (log : Log) : ∀ (ws : List Workflow) (l : List Config)
    (count base : Nat),
    Paired (fun w c => w.id = c.id ∧ c ∈ cs ∧ SmoothFor cs c.id w.runs) ws l →
    count = base + (ws.map fun w => travCount w.runs).sum → count ≤ limit →
      (processAll limit log count (ws.zip l)).2.1 =
        base + ((processAll limit log count (ws.zip l)).1.map fun w => travCount w.runs).sum ∧
      (processAll limit log count (ws.zip l)).2.1 ≤ limit
  | [], [], count, base, _, hc, hl => by simpa [processAll] using ⟨hc, hl⟩
  | w :: ws, c :: l, count, base, ⟨⟨_, h2, h3⟩, h4⟩, hc, hl => by
    simp only [List.zip_cons_cons, List.map_cons, List.sum_cons] at hc ⊢
    unfold processAll
    dsimp only
    obtain ⟨e1, e2⟩ := processRuns_sound (c := c) (limit := limit) (log := log) (runs := w.runs) (count := count)
      (base := base + (ws.map fun w => travCount w.runs).sum) (fun r hr => h3 c h2 rfl r hr) (by omega) hl
    obtain ⟨f1, f2⟩ := processAll_count (cs := cs) limit log ws l (processRuns c limit log count w.runs).count
      (base + travCount (processRuns c limit log count w.runs).done) h4 (by omega) e2
    simp only [List.map_cons, List.sum_cons]
    exact ⟨by omega, f2⟩

theorem Counted.enter {e : Engine} (h : Counted e) (session : String) : Counted (e.enter session) := by
  unfold Engine.enter
  split
  · exact h
  · split
    · unfold Counted Engine.total
      dsimp only
      have : ∀ l : List Workflow, ((l.map fun w => ({ w with runs := [] } : Workflow)).map fun w => travCount w.runs).sum
          = 0 := by
        intro l
        induction l with
        | nil => rfl
        | cons x l ih => simpa [travCount] using ih
      rw [this]
      exact ⟨rfl, Nat.zero_le _⟩
    · exact h

theorem Counted.handle {cs : List Config} {e : Engine}
    (hg : Paired (fun w c => w.id = c.id ∧ c ∈ cs ∧ SmoothFor cs c.id w.runs) e.workflows e.configs) (h : Counted e)
    (log : Log) (dests : List String) (v : LogEnv) : Counted (e.handle log dests v).1 := by
  unfold Engine.handle
  split
  · exact h
  · have := processAll_count (cs := cs) e.limit log e.workflows e.configs e.count 0 hg
      (by have := h.1; unfold Engine.total at this; omega) h.2
    unfold Counted Engine.total
    dsimp only
    exact ⟨by omega, this.2⟩

theorem Counted.apply {cs : List Config} {e : Engine} (hc : Calm cs)
    (hg : Good cs (fun c runs => SmoothFor cs c.id runs) (fun w => SmoothFor cs w.id w.runs) e) (h : Counted e) (op : Op) :
    Counted (e.apply op) := by
  cases op with
  | start limit readable oks ec => exact Counted.start e limit readable oks ec
  | update ec => exact h.update hg.1.length ec
  | log l dests v => exact Counted.handle (hg.enter (keeps_smooth hc) l.session).1 (h.enter l.session) l dests v
  | approved p ok =>
    unfold Engine.apply Engine.approved
    dsimp only
    split
    · split
      · exact h
      · exact h
    · exact h
  | rejected p => exact h
  | flushed id => exact h
  | persist due out =>
    unfold Engine.apply Engine.persist
    dsimp only
    split <;> exact h

theorem counted_run {cs : List Config} (hc : Calm cs) : ∀ (ops : List Op) (e : Engine),
    Good cs (fun c runs => SmoothFor cs c.id runs) (fun w => SmoothFor cs w.id w.runs) e → Counted e →
    (∀ op ∈ ops, ∀ c ∈ op.configs, c ∈ cs) → Counted (e.run ops)
  | [], _, _, h, _ => h
  | op :: ops, e, hg, h, hin => by
    unfold Engine.run
    simp only [List.foldl_cons]
    exact counted_run hc ops _ (hg.apply (keeps_smooth hc) op (hin op List.mem_cons_self)) (h.apply hc hg op)
      fun x hx => hin x (List.mem_cons_of_mem _ hx)

/-- C33.  Over all histories of starts, configuration updates, logs, negotiations and saves, under configurations as in
`Calm`: the engine's counter is the number of traversals of all its runs, and does not exceed the limit.  Missing:
workflows that both limit the matched logs and have a state with two ways out, see the two violations below. -/
theorem C33_partial (ops : List Op) (hc : Calm (histConfigs ops)) :
    ((({} : Engine).run ops).count = ((({} : Engine).run ops).workflows.map fun w =>
        (w.runs.map fun r => r.traversals.length).sum).sum) ∧
      (({} : Engine).run ops).count ≤ (({} : Engine).run ops).limit :=
  counted_run hc ops {} Good.init ⟨rfl, Nat.le_refl _⟩ mem_histConfigs

/-- The limit in force is the one the process was started with. -/
theorem addWorkflow_limit (e : Engine) (w : Workflow) (c : Config) : (e.addWorkflow w c).limit = e.limit := rfl

theorem addWorkflows_limit : ∀ (l : List Config) (saved : List Workflow) (e : Engine),
    (e.addWorkflows saved l).limit = e.limit
  | [], _, _ => rfl
  | c :: l, saved, e => by
    unfold Engine.addWorkflows
    split
    · rw [addWorkflows_limit l]; rfl
    · rw [addWorkflows_limit l]; rfl

theorem fold_limit : ∀ (l : List Config) (e : Engine),
    (l.foldl (fun e c => e.addWorkflow { id := c.id } c) e).limit = e.limit
  | [], _ => rfl
  | _ :: l, e => by
    simp only [List.foldl_cons]
    rw [fold_limit l]
    rfl

/-- The limit is the one given at the start of the process, whatever happens afterwards. -/
theorem C33_limit_constant (e : Engine) (op : Op) : (e.apply op).limit =
    match op with
    | .start limit _ _ _ => limit
    | _ => e.limit := by
  cases op with
  | start limit readable oks ec =>
    show (e.start limit readable oks ec).limit = limit
    unfold Engine.start
    dsimp only
    split
    · exact addWorkflows_limit ..
    · exact addWorkflows_limit ..
  | update ec =>
    show (e.update ec).limit = e.limit
    unfold Engine.update Engine.updateWorkflows
    dsimp only
    rw [fold_limit]
    rfl
  | log l dests v =>
    show ((e.enter l.session).handle l dests v).1.limit = e.limit
    have h1 : (e.enter l.session).limit = e.limit := by
      unfold Engine.enter
      split
      · rfl
      · split <;> rfl
    unfold Engine.handle
    split
    · exact h1
    · exact h1
  | approved p ok =>
    show (e.approved p ok).limit = e.limit
    unfold Engine.approved
    dsimp only
    split
    · split <;> rfl
    · rfl
  | rejected p => rfl
  | flushed id => rfl
  | persist due out =>
    show (e.persist due out).limit = e.limit
    unfold Engine.persist
    split <;> rfl

/-! ### Where the property fails -/

namespace Ex
/-- state 0 forks on matcher 1 into states 1 and 2, which wait for matcher 2 (and go on to states that wait for matcher
3); at most `n` matched logs -/
def forking (n : Nat) : Config :=
  { id := "w", exclusive := false, maxMatched := some n,
    states := [
      ⟨"0", [⟨1, .logMatch 1 1, [], []⟩, ⟨2, .logMatch 1 1, [], []⟩]⟩,
      ⟨"1", [⟨3, .logMatch 2 1, [], []⟩]⟩,
      ⟨"2", [⟨3, .logMatch 2 1, [], []⟩, ⟨4, .logMatch 2 1, [], []⟩]⟩,
      ⟨"3", [⟨5, .logMatch 3 1, [], []⟩]⟩,
      ⟨"4", [⟨5, .logMatch 3 1, [], []⟩]⟩,
      ⟨"5", []⟩] }
/-- a parallel workflow that gains a run for every log accepted by matcher 7 -/
def growing : Config :=
  { id := "g", exclusive := false,
    states := [⟨"0", [⟨1, .logMatch 7 1, [], []⟩]⟩, ⟨"1", [⟨2, .logMatch 8 1, [], []⟩]⟩, ⟨"2", []⟩] }
/-- state 2 is completed instead: the counter ends up too high -/
def finishing (n : Nat) : Config :=
  { id := "w", exclusive := false, maxMatched := some n,
    states := [
      ⟨"0", [⟨1, .logMatch 1 1, [], []⟩, ⟨2, .logMatch 1 1, [], []⟩]⟩,
      ⟨"1", [⟨3, .logMatch 2 1, [], []⟩]⟩,
      ⟨"2", [⟨3, .logMatch 2 1, [], []⟩]⟩,
      ⟨"3", []⟩] }
def log (hits : List Nat) : Op := .log { session := "s", time := 0, hits := hits } [] {}
def start (limit : Nat) (cs : List Config) : Op := .start limit true [] ⟨cs, [], []⟩
end Ex

/-- The counter is too high for good: one traversal completed in the run that was then stopped. -/
theorem C33_counter_violated :
    let e := ({} : Engine).run [Ex.start 100 [Ex.finishing 3], Ex.log [1], Ex.log [2], Ex.log []]
    e.count = 2 ∧ e.total = 1 := by decide +kernel

/-- The counter is too low, and more traversals live than the limit allows. -/
theorem C33_limit_violated :
    let e := ({} : Engine).run [Ex.start 5 [Ex.growing, Ex.forking 4],
      Ex.log [7], Ex.log [1], Ex.log [2], Ex.log [7], Ex.log [7], Ex.log [7], Ex.log [7]]
    e.limit = 5 ∧ e.total = 6 ∧ e.count = 5 := by decide +kernel

/-- The hypothesis of `C33_partial` holds for histories with forks and with limits, and the limit bites. -/
example : Calm (histConfigs [Ex.start 3 [Ex.growing, { Ex.forking 0 with maxMatched := none }], Ex.log [7]]) := by
  intro c hc c' hc' hid
  left
  have : c = Ex.growing ∨ c = { Ex.forking 0 with maxMatched := none } := by
    simpa [histConfigs, Op.configs, Ex.start, Ex.log] using hc
  rcases this with rfl | rfl <;> rfl

example :
    let e := ({} : Engine).run [Ex.start 3 [Ex.growing, { Ex.forking 0 with maxMatched := none }],
      Ex.log [7], Ex.log [7, 1], Ex.log [7, 1]]
    e.total = 3 ∧ e.count = 3 := by decide +kernel

end Verif.Wf
