import Verif.Workflow.UpdateProps
import Verif.Workflow.EmitProps
import Verif.Workflow.RestoreProps

/-
Workflows do not influence each other as long as the limit on traversals is not reached: bd-workflows/src/engine.rs:547-755
(`process_log`) and bd-workflows/src/workflow.rs:80-280, modelled in Verif.Workflow.Run, Engine and Meter.
-/
namespace Verif.Wf

/-! ### One workflow, one log -/

/-- Two passes over the runs of a workflow that agree in all but the number of traversals and the limit. -/
structure Agree (a b : WfAcc) : Prop where
  done : a.done = b.done
  actions : a.actions = b.actions
  progress : a.progress = b.progress
  broken : a.broken = b.broken

theorem settle_hit (a : WfAcc) (limit : Nat) (run : Run) (r : RunResult) : a.stats.limitHit ≤ (a.settle limit run r).stats.limitHit := by
  unfold WfAcc.settle
  split
  · dsimp only
    split <;> omega
  · split <;> exact Nat.le_refl _

theorem exclusive_hit (a : WfAcc) (c : Config) (log : Log) (n : Nat) : (a.exclusive c log n).stats.limitHit = a.stats.limitHit := by
  unfold WfAcc.exclusive
  split
  · split
    · split <;> rfl
    · rfl
  · rfl

theorem visit_hit (c : Config) (log : Log) (limit before : Nat) (run : Run) (a : WfAcc) :
    a.stats.limitHit ≤ (a.visit c log limit before run).stats.limitHit := by
  unfold WfAcc.visit
  split
  · exact Nat.le_refl _
  · split
    · rw [exclusive_hit]
      exact settle_hit (a.incorporate _) limit _ _
    · exact settle_hit (a.incorporate _) limit _ _

theorem settle_agree {a b : WfAcc} (h : Agree a b) (la lb : Nat) (run : Run) (r : RunResult)
    (ha : (a.settle la run r).stats.limitHit = 0) (hb : (b.settle lb run r).stats.limitHit = 0) :
    Agree (a.settle la run r) (b.settle lb run r) := by
  have na : ¬ a.count > la := by
    intro hc
    unfold WfAcc.settle at ha
    rw [if_pos (.inr hc)] at ha
    dsimp only at ha
    rw [if_pos hc] at ha
    omega
  have nb : ¬ b.count > lb := by
    intro hc
    unfold WfAcc.settle at hb
    rw [if_pos (.inr hc)] at hb
    dsimp only at hb
    rw [if_pos hc] at hb
    omega
  unfold WfAcc.settle
  simp only [na, nb, or_false]
  by_cases hs : r.state = .stopped
  · rw [if_pos hs, if_pos hs]
    exact ⟨h.done, h.actions, h.progress, h.broken⟩
  · rw [if_neg hs, if_neg hs]
    by_cases hc : r.state = .completed
    · rw [if_pos hc, if_pos hc]
      exact ⟨h.done, h.actions, rfl, h.broken⟩
    · rw [if_neg hc, if_neg hc]
      exact ⟨by simp [h.done], h.actions, by simp [h.progress], h.broken⟩

theorem exclusive_agree {a b : WfAcc} (h : Agree a b) (c : Config) (log : Log) (n : Nat) :
    Agree (a.exclusive c log n) (b.exclusive c log n) := by
  obtain ⟨d, n1, ac, s1, p, br⟩ := a
  obtain ⟨d', n2, ac', s2, p', br'⟩ := b
  obtain ⟨h1, h2, h3, h4⟩ := h
  dsimp only at h1 h2 h3 h4
  subst h1 h2 h3 h4
  unfold WfAcc.exclusive
  dsimp only
  split
  · split
    · cases d[1]? <;> exact ⟨rfl, rfl, rfl, rfl⟩
    · exact ⟨rfl, rfl, rfl, rfl⟩
  · exact ⟨rfl, rfl, rfl, rfl⟩

theorem visit_agree {a b : WfAcc} (h : Agree a b) (c : Config) (log : Log) (la lb n : Nat) (run : Run)
    (ha : (a.visit c log la n run).stats.limitHit = 0) (hb : (b.visit c log lb n run).stats.limitHit = 0) :
    Agree (a.visit c log la n run) (b.visit c log lb n run) := by
  unfold WfAcc.visit at ha hb ⊢
  rw [← h.broken] at hb ⊢
  split
  · exact ⟨by simp [h.done], h.actions, h.progress, rfl⟩
  · rename_i hbr
    rw [if_neg hbr] at ha hb
    have hi : Agree (a.incorporate (run.process c log).2) (b.incorporate (run.process c log).2) :=
      ⟨h.done, by simp [WfAcc.incorporate, h.actions], h.progress, h.broken⟩
    split
    · rename_i hx
      rw [if_pos hx, exclusive_hit] at ha hb
      exact exclusive_agree (settle_agree hi la lb _ _ ha hb) c log n
    · rename_i hx
      rw [if_neg hx] at ha hb
      exact settle_agree hi la lb _ _ ha hb

theorem loop_agree (c : Config) (log : Log) (la lb : Nat) {a b : WfAcc} (h : Agree a b) : ∀ (rs : List Run) (i : Nat),
    (loop c log la a i rs).stats.limitHit = 0 → (loop c log lb b i rs).stats.limitHit = 0 →
    Agree (loop c log la a i rs) (loop c log lb b i rs) := by
  intro rs
  induction rs with
  | nil => intro i _ _; exact h
  | cons r rs ih =>
    intro i ha hb
    have la' := visit_hit c log la i r (loop c log la a (i + 1) rs)
    have lb' := visit_hit c log lb i r (loop c log lb b (i + 1) rs)
    simp only [loop] at ha hb ⊢
    exact visit_agree (ih (i + 1) (by omega) (by omega)) c log la lb i r ha hb

theorem loop_hit (c : Config) (log : Log) (limit : Nat) (a : WfAcc) : ∀ (rs : List Run) (i : Nat),
    a.stats.limitHit ≤ (loop c log limit a i rs).stats.limitHit := by
  intro rs
  induction rs with
  | nil => intro i; exact Nat.le_refl _
  | cons r rs ih =>
    intro i
    exact Nat.le_trans (ih (i + 1)) (visit_hit c log limit i r _)

theorem prepare_hit (c : Config) (limit count : Nat) (runs : List Run) (h : (prepare c limit count runs).2.2.limitHit = 0) :
    (prepare c limit count runs).1 = if needsNew runs then (if c.exclusive then Run.new c :: runs else runs ++ [Run.new c]) else runs := by
  unfold prepare at h ⊢
  split
  · rename_i hn
    rw [if_pos hn] at h
    unfold addRun at h ⊢
    split
    · rfl
    · rename_i hl
      rw [if_neg hl] at h
      cases h
  · rfl

/-- What a workflow does with a log does not depend on the others, unless the limit is hit. -/
theorem processRuns_agree (c : Config) (log : Log) (la lb na nb : Nat) (runs : List Run)
    (ha : (processRuns c la log na runs).stats.limitHit = 0) (hb : (processRuns c lb log nb runs).stats.limitHit = 0) :
    (processRuns c la log na runs).done = (processRuns c lb log nb runs).done ∧
    (processRuns c la log na runs).actions = (processRuns c lb log nb runs).actions := by
  unfold processRuns at ha hb ⊢
  have pa := prepare_hit c la na runs (by
    have := loop_hit c log la { count := (prepare c la na runs).2.1, stats := (prepare c la na runs).2.2 } (prepare c la na runs).1 0
    dsimp only at this
    omega)
  have pb := prepare_hit c lb nb runs (by
    have := loop_hit c log lb { count := (prepare c lb nb runs).2.1, stats := (prepare c lb nb runs).2.2 } (prepare c lb nb runs).1 0
    dsimp only at this
    omega)
  rw [pa] at ha ⊢
  rw [pb] at hb ⊢
  have := loop_agree c log la lb
    (a := { count := (prepare c la na runs).2.1, stats := (prepare c la na runs).2.2 })
    (b := { count := (prepare c lb nb runs).2.1, stats := (prepare c lb nb runs).2.2 }) ⟨rfl, rfl, rfl, rfl⟩ _ 0 ha hb
  exact ⟨this.done, this.actions⟩

/-! ### All workflows, one log -/

/-- What each workflow does with the log. -/
def trail (limit : Nat) (log : Log) : Nat → List (Workflow × Config) → List (Workflow × Config × WfAcc)
  | _, [] => []
  | count, (w, c) :: l => (w, c, processRuns c limit log count w.runs) :: trail limit log (processRuns c limit log count w.runs).count l

theorem trail_facts (limit : Nat) (log : Log) : ∀ (l : List (Workflow × Config)) (count : Nat),
    (processAll limit log count l).1 = (trail limit log count l).map (fun x => { x.1 with runs := x.2.2.done }) ∧
    (processAll limit log count l).2.2.1 = ((trail limit log count l).map fun x => x.2.2.actions).flatten ∧
    statsAll limit log count l = (trail limit log count l).map (fun x => x.2.2.stats) ∧
    (trail limit log count l).map (fun x => (x.1, x.2.1)) = l ∧
    ∀ x ∈ trail limit log count l, ∃ n, x.2.2 = processRuns x.2.1 limit log n x.1.runs := by
  intro l
  induction l with
  | nil => intro count; simp [processAll, trail, statsAll]
  | cons x l ih =>
    intro count
    obtain ⟨w, c⟩ := x
    obtain ⟨h1, h2, h3, h4, h5⟩ := ih (processRuns c limit log count w.runs).count
    simp only [processAll, trail, statsAll, List.map_cons, List.flatten_cons]
    refine ⟨by rw [h1], by rw [h2], by rw [h3], by rw [h4], ?_⟩
    intro y hy
    rcases List.mem_cons.1 hy with rfl | hy
    · exact ⟨count, rfl⟩
    · exact h5 y hy

/-- What the actions of a log emit. -/
def Emits (log : Log) (v : LogEnv) (t : Trig) (x : Emitted) : Prop :=
  (∃ a, t = .metric a ∧ emitMetric (lookup · v.parse) log a = some x) ∨ (∃ a p, t = .sankey a p ∧ emitSankey log (a, p) = x)

theorem handle_facts (e : Engine) (log : Log) (dests : List String) (v : LogEnv) :
    (e.handle log dests v).1.configs = e.configs ∧ (e.handle log dests v).1.session = e.session ∧
    (e.handle log dests v).1.workflows =
      (trail e.limit log e.count (e.workflows.zip e.configs)).map (fun x => { x.1 with runs := x.2.2.done }) ++
        (if e.workflows.isEmpty then e.workflows else []) ∧
    ∀ x, x ∈ (e.handle log dests v).1.emitted ↔
      x ∈ e.emitted ∨ ∃ y ∈ trail e.limit log e.count (e.workflows.zip e.configs), ∃ t ∈ y.2.2.actions, Emits log v t x := by
  obtain ⟨h1, h2, _, _, _⟩ := trail_facts e.limit log (e.workflows.zip e.configs) e.count
  unfold Engine.handle
  split
  · rename_i hw
    have : e.workflows = [] := List.isEmpty_iff.1 hw
    rw [this]
    simp [trail]
  · rename_i hw
    refine ⟨rfl, rfl, ?_, ?_⟩
    · simpa using h1
    · intro x
      simp only [List.mem_append]
      rw [or_assoc]
      apply or_congr Iff.rfl
      rw [h2]
      simp only [metricActions, sankeyActions, List.mem_filterMap, List.mem_map, mem_addNew, List.not_mem_nil, false_or, List.mem_flatten]
      constructor
      · rintro (⟨a, ⟨t, ⟨l, ⟨y, hy, rfl⟩, ht⟩, hm⟩, hx⟩ | ⟨a, ⟨t, ⟨l, ⟨y, hy, rfl⟩, ht⟩, hm⟩, hx⟩)
        · refine ⟨y, hy, t, ht, .inl ⟨a, ?_, hx⟩⟩
          cases t <;> cases hm
          rfl
        · refine ⟨y, hy, t, ht, .inr ⟨a.1, a.2, ?_, hx⟩⟩
          cases t <;> cases hm
          rfl
      · rintro ⟨y, hy, t, ht, ⟨a, rfl, hx⟩ | ⟨a, p, rfl, hx⟩⟩
        · exact .inl ⟨a, ⟨_, ⟨_, ⟨y, hy, rfl⟩, ht⟩, rfl⟩, hx⟩
        · exact .inr ⟨(a, p), ⟨_, ⟨_, ⟨y, hy, rfl⟩, ht⟩, rfl⟩, hx⟩

/-! ### Histories -/

/-- The same input for a process with only this workflow, and a limit of its own. -/
def only (c : Config) (lim : Nat) : Op → Op
  | .start _ r oks ec => .start lim r oks { ec with configs := ec.configs.filter (· = c) }
  | .update ec => .update { ec with configs := ec.configs.filter (· = c) }
  | op => op

theorem foldl_log_hit : ∀ (l : List Stats) (m : Counters), (l.foldl Counters.log m).limitHit = m.limitHit + (l.map (·.limitHit)).sum := by
  intro l
  induction l with
  | nil => intro m; rfl
  | cons s l ih =>
    intro m
    simp only [List.foldl_cons, List.map_cons, List.sum_cons]
    rw [ih]
    simp [Counters.log, Nat.add_assoc]

theorem sum_zero : ∀ {l : List Nat}, l.sum = 0 → ∀ n ∈ l, n = 0 := by
  intro l
  induction l with
  | nil => intro _ n hn; cases hn
  | cons a l ih =>
    intro h n hn
    rw [List.sum_cons] at h
    rcases List.mem_cons.1 hn with rfl | hn
    · omega
    · exact ih (by omega) n hn

/-- The limit counter after a log. -/
theorem processLog_hit (x : Metered) (log : Log) (dests : List String) (v : LogEnv)
    (h : (x.processLog log dests v).m.limitHit = 0) :
    x.m.limitHit = 0 ∧ ∀ y ∈ trail (x.e.enter log.session).limit log (x.e.enter log.session).count
      ((x.e.enter log.session).workflows.zip (x.e.enter log.session).configs), y.2.2.stats.limitHit = 0 := by
  obtain ⟨_, _, h3, _, _⟩ := trail_facts (x.e.enter log.session).limit log
    ((x.e.enter log.session).workflows.zip (x.e.enter log.session).configs) (x.e.enter log.session).count
  unfold Metered.processLog Metered.handle at h
  dsimp only at h
  split at h
  · rename_i hw
    have : (x.e.enter log.session).workflows = [] := List.isEmpty_iff.1 hw
    rw [this]
    exact ⟨h, by simp [trail]⟩
  · dsimp only at h
    rw [foldl_log_hit, h3] at h
    refine ⟨by omega, fun y hy => ?_⟩
    have hz : (List.map (fun s : Stats => s.limitHit) (List.map (fun x : Workflow × Config × WfAcc => x.2.2.stats)
      (trail (x.e.enter log.session).limit log (x.e.enter log.session).count
        ((x.e.enter log.session).workflows.zip (x.e.enter log.session).configs)))).sum = 0 := by omega
    exact sum_zero hz _ (List.mem_map_of_mem (List.mem_map_of_mem hy))

def Op.starts : Op → Bool
  | .start .. => true
  | _ => false

theorem addFresh_hit : ∀ (cs : List Config) (x : Metered),
    (cs.foldl (fun x c => x.addWorkflow { id := c.id } c) x).m.limitHit = x.m.limitHit := by
  intro cs
  induction cs with
  | nil => intro x; rfl
  | cons c cs ih =>
    intro x
    simp only [List.foldl_cons]
    rw [ih]
    simp [Metered.addWorkflow]

theorem apply_hit (x : Metered) (op : Op) (hs : op.starts = false) (h : (x.apply op).m.limitHit = 0) : x.m.limitHit = 0 := by
  cases op with
  | start => cases hs
  | update ec =>
    have : (x.update ec).m.limitHit = x.m.limitHit := by
      unfold Metered.update
      dsimp only
      rw [addFresh_hit]
      rfl
    exact this ▸ h
  | log l d v => exact (processLog_hit x l d v h).1
  | approved p ok =>
    change (x.approved p ok).m.limitHit = 0 at h
    unfold Metered.approved at h
    dsimp only at h
    split at h <;> exact h
  | rejected p => exact h
  | flushed id => exact h
  | persist due out => exact h

theorem run_hit : ∀ (ops : List Op) (x : Metered), (∀ op ∈ ops, op.starts = false) → (x.run ops).m.limitHit = 0 → x.m.limitHit = 0 := by
  intro ops
  induction ops with
  | nil => intro x _ h; exact h
  | cons op ops ih =>
    intro x hs h
    exact apply_hit x op (hs op (List.mem_cons_self ..)) (ih (x.apply op) (fun o ho => hs o (List.mem_cons_of_mem _ ho)) h)

/-- A process with all workflows and one with only `c`. -/
structure Solo (c : Config) (e s : Engine) : Prop where
  ids : e.workflows.map (·.id) = e.configs.map (·.id)
  nodup : (e.configs.map (·.id)).Nodup
  ids' : s.workflows.map (·.id) = s.configs.map (·.id)
  lone : ∀ d ∈ s.configs, d = c
  session : e.session = s.session
  state : ∀ w, (w, c) ∈ e.workflows.zip e.configs ↔ (w, c) ∈ s.workflows.zip s.configs

theorem mem_zip_config {e : Engine} (h : e.workflows.map (·.id) = e.configs.map (·.id)) (c : Config) :
    c ∈ e.configs ↔ ∃ w, (w, c) ∈ e.workflows.zip e.configs := by
  obtain ⟨_, z2, _⟩ := zip_maps h
  constructor
  · intro hc
    rw [← z2] at hc
    obtain ⟨x, hx, rfl⟩ := List.mem_map.1 hc
    exact ⟨x.1, hx⟩
  · rintro ⟨w, hw⟩
    rw [← z2]
    exact List.mem_map_of_mem hw

theorem filter_nodup {cs : List Config} (hn : (cs.map (·.id)).Nodup) (c : Config) : ((cs.filter (· = c)).map (·.id)).Nodup :=
  hn.sublist (List.filter_sublist.map _)

/-- The pairs after a log, for an engine that has entered the session. -/
theorem handle_zip {e : Engine} (h : e.workflows.map (·.id) = e.configs.map (·.id)) (log : Log) (dests : List String) (v : LogEnv)
    (w' : Workflow) (c : Config) :
    (w', c) ∈ (e.handle log dests v).1.workflows.zip (e.handle log dests v).1.configs ↔
      ∃ y ∈ trail e.limit log e.count (e.workflows.zip e.configs), y.2.1 = c ∧ w' = { y.1 with runs := y.2.2.done } := by
  obtain ⟨h1, _, h3, _⟩ := handle_facts e log dests v
  obtain ⟨_, _, _, h4, _⟩ := trail_facts e.limit log (e.workflows.zip e.configs) e.count
  obtain ⟨_, z2, _⟩ := zip_maps h
  rw [h1, h3]
  have hz : (if e.workflows.isEmpty then e.workflows else []) = ([] : List Workflow) := by
    split
    · rename_i hw; exact List.isEmpty_iff.1 hw
    · rfl
  rw [hz, List.append_nil]
  have hc : e.configs = (trail e.limit log e.count (e.workflows.zip e.configs)).map (fun y => y.2.1) := by
    conv => lhs; rw [← z2, ← h4]
    rw [List.map_map]
    rfl
  generalize trail e.limit log e.count (e.workflows.zip e.configs) = T at hc
  rw [hc, List.zip_map', List.mem_map]
  constructor
  · rintro ⟨y, hy, he⟩
    cases he
    exact ⟨y, hy, rfl, rfl⟩
  · rintro ⟨y, hy, rfl, rfl⟩
    exact ⟨y, hy, rfl⟩

theorem enter_zip (e : Engine) (s : String) (w : Workflow) (c : Config) :
    (w, c) ∈ (e.enter s).workflows.zip (e.enter s).configs ↔
      if e.session ≠ "" ∧ e.session ≠ s then ∃ u, (u, c) ∈ e.workflows.zip e.configs ∧ w = { u with runs := [] }
      else (w, c) ∈ e.workflows.zip e.configs := by
  unfold Engine.enter
  split
  · rename_i h
    rw [if_neg (by simp [h])]
  · rename_i h
    split
    · rename_i h2
      rw [if_pos ⟨h, h2⟩]
      dsimp only
      rw [List.zip_map_left, List.mem_map]
      constructor
      · rintro ⟨⟨u, d⟩, hu, he⟩
        cases he
        exact ⟨u, hu, rfl⟩
      · rintro ⟨u, hu, rfl⟩
        exact ⟨(u, c), hu, rfl⟩
    · rename_i h2
      rw [if_neg (by rintro ⟨_, h3⟩; exact h2 h3)]

theorem enter_session (e s : Engine) (x : String) (h : e.session = s.session) : (e.enter x).session = (s.enter x).session := by
  unfold Engine.enter
  rw [h]
  split
  · rfl
  · split
    · rfl
    · exact h

theorem Solo.enter {c : Config} {e s : Engine} (h : Solo c e s) (x : String) : Solo c (e.enter x) (s.enter x) := by
  obtain ⟨e1, e2⟩ := enter_lists e x
  obtain ⟨s1, s2⟩ := enter_lists s x
  refine ⟨by rw [e1, e2]; exact h.ids, by rw [e1]; exact h.nodup, by rw [s1, s2]; exact h.ids', by rw [s1]; exact h.lone,
    enter_session e s x h.session, fun w => ?_⟩
  rw [enter_zip, enter_zip, h.session]
  split
  · exact exists_congr fun u => and_congr (h.state u) Iff.rfl
  · exact h.state w

/-- What the two do with a log, when the limit is not hit. -/
theorem Solo.trail {c : Config} {e s : Engine} (h : Solo c e s) (log : Log)
    (he : ∀ y ∈ trail e.limit log e.count (e.workflows.zip e.configs), y.2.2.stats.limitHit = 0)
    (hs : ∀ y ∈ trail s.limit log s.count (s.workflows.zip s.configs), y.2.2.stats.limitHit = 0) (w : Workflow) :
    (∀ a, (w, c, a) ∈ Wf.trail e.limit log e.count (e.workflows.zip e.configs) →
      ∃ b, (w, c, b) ∈ Wf.trail s.limit log s.count (s.workflows.zip s.configs) ∧ a.done = b.done ∧ a.actions = b.actions) ∧
    (∀ b, (w, c, b) ∈ Wf.trail s.limit log s.count (s.workflows.zip s.configs) →
      ∃ a, (w, c, a) ∈ Wf.trail e.limit log e.count (e.workflows.zip e.configs) ∧ a.done = b.done ∧ a.actions = b.actions) := by
  obtain ⟨_, _, _, t4, t5⟩ := trail_facts e.limit log (e.workflows.zip e.configs) e.count
  obtain ⟨_, _, _, u4, u5⟩ := trail_facts s.limit log (s.workflows.zip s.configs) s.count
  constructor
  · intro a ha
    have hm : (w, c) ∈ e.workflows.zip e.configs := by rw [← t4]; exact List.mem_map.2 ⟨_, ha, rfl⟩
    rw [h.state, ← u4] at hm
    obtain ⟨⟨w2, c2, b⟩, hb, hq⟩ := List.mem_map.1 hm
    obtain ⟨rfl, rfl⟩ : w2 = w ∧ c2 = c := ⟨congrArg Prod.fst hq, congrArg Prod.snd hq⟩
    refine ⟨b, hb, ?_⟩
    obtain ⟨n, hn⟩ := t5 _ ha
    obtain ⟨n', hn'⟩ := u5 _ hb
    dsimp only at hn hn'
    have := processRuns_agree c2 log e.limit s.limit n n' w2.runs (by rw [← hn]; exact he _ ha) (by rw [← hn']; exact hs _ hb)
    rw [← hn, ← hn'] at this
    exact this
  · intro b hb
    have hm : (w, c) ∈ s.workflows.zip s.configs := by rw [← u4]; exact List.mem_map.2 ⟨_, hb, rfl⟩
    rw [← h.state, ← t4] at hm
    obtain ⟨⟨w2, c2, a⟩, ha, hq⟩ := List.mem_map.1 hm
    obtain ⟨rfl, rfl⟩ : w2 = w ∧ c2 = c := ⟨congrArg Prod.fst hq, congrArg Prod.snd hq⟩
    refine ⟨a, ha, ?_⟩
    obtain ⟨n, hn⟩ := t5 _ ha
    obtain ⟨n', hn'⟩ := u5 _ hb
    dsimp only at hn hn'
    have := processRuns_agree c2 log e.limit s.limit n n' w2.runs (by rw [← hn]; exact he _ ha) (by rw [← hn']; exact hs _ hb)
    rw [← hn, ← hn'] at this
    exact this

theorem Solo.handle {c : Config} {e s : Engine} (h : Solo c e s) (log : Log) (dests : List String) (v : LogEnv)
    (he : ∀ y ∈ Wf.trail e.limit log e.count (e.workflows.zip e.configs), y.2.2.stats.limitHit = 0)
    (hs : ∀ y ∈ Wf.trail s.limit log s.count (s.workflows.zip s.configs), y.2.2.stats.limitHit = 0) :
    Solo c (e.handle log dests v).1 (s.handle log dests v).1 := by
  obtain ⟨e1, e2, e3, _⟩ := handle_facts e log dests v
  obtain ⟨s1, s2, s3, _⟩ := handle_facts s log dests v
  have idh : ∀ {e : Engine}, e.workflows.map (·.id) = e.configs.map (·.id) →
      (e.handle log dests v).1.workflows.map (·.id) = (e.handle log dests v).1.configs.map (·.id) := by
    intro e h
    obtain ⟨e1, _, e3, _⟩ := handle_facts e log dests v
    obtain ⟨_, _, _, t4, _⟩ := trail_facts e.limit log (e.workflows.zip e.configs) e.count
    obtain ⟨z1, _, _⟩ := zip_maps h
    have hz : (if e.workflows.isEmpty then e.workflows else []) = ([] : List Workflow) := by
      split
      · rename_i hw; exact List.isEmpty_iff.1 hw
      · rfl
    rw [e1, e3, hz, List.append_nil, ← h]
    conv => rhs; rw [← z1, ← t4]
    simp [List.map_map, Function.comp_def]
  refine ⟨idh h.ids, by rw [e1]; exact h.nodup, idh h.ids', by rw [s1]; exact h.lone, by rw [e2, s2]; exact h.session, fun w => ?_⟩
  rw [handle_zip h.ids, handle_zip h.ids']
  constructor
  · rintro ⟨⟨u, d, a⟩, ha, hd, rfl⟩
    change d = c at hd
    subst hd
    obtain ⟨b, hb, hq, _⟩ := (h.trail log he hs u).1 a ha
    exact ⟨(u, d, b), hb, rfl, by dsimp only; rw [hq]⟩
  · rintro ⟨⟨u, d, b⟩, hb, hd, rfl⟩
    change d = c at hd
    subst hd
    obtain ⟨a, ha, hq, _⟩ := (h.trail log he hs u).2 b hb
    exact ⟨(u, d, a), ha, rfl, by dsimp only; rw [hq]⟩

theorem addFresh_session : ∀ (cs : List Config) (e : Engine),
    (cs.foldl (fun e c => e.addWorkflow { id := c.id } c) e).session = e.session := by
  intro cs
  induction cs with
  | nil => intro e; rfl
  | cons c cs ih => intro e; simp only [List.foldl_cons]; rw [ih]; rfl

theorem update_session (e : Engine) (ec : EngineCfg) : (e.update ec).session = e.session := by
  unfold Engine.update Engine.updateWorkflows
  dsimp only
  rw [addFresh_session]
  rfl

theorem Solo.update {c : Config} {e s : Engine} (h : Solo c e s) (ec : EngineCfg) (hn : (ec.configs.map (·.id)).Nodup) :
    Solo c (e.update ec) (s.update { ec with configs := ec.configs.filter (· = c) }) := by
  have hn' := filter_nodup hn c
  have upd : ∀ {e : Engine} (ec : EngineCfg), (ec.configs.map (·.id)).Nodup → e.workflows.map (·.id) = e.configs.map (·.id) →
      (e.configs.map (·.id)).Nodup → (e.update ec).workflows.map (·.id) = (e.update ec).configs.map (·.id) ∧
        (e.update ec).configs.Perm ec.configs := by
    intro e ec hn hi hd
    have o : Obeys e (some ⟨e.configs, [], []⟩) := ⟨hi, List.Perm.refl _, hd⟩
    have := o.update ec hn
    exact ⟨this.ids, this.set⟩
  obtain ⟨p1, p2⟩ := upd ec hn h.ids h.nodup
  have sids : (s.update { ec with configs := ec.configs.filter (· = c) }).workflows.map (·.id) =
      (s.update { ec with configs := ec.configs.filter (· = c) }).configs.map (·.id) := by
    obtain ⟨h1, h2⟩ := update_lists s { ec with configs := ec.configs.filter (· = c) }
    obtain ⟨_, _, z3⟩ := zip_maps h.ids'
    rw [h1, h2]
    simp only [List.map_append, List.map_map]
    congr 1
    apply List.map_congr_left
    intro x hx
    exact z3 x (List.mem_filter.1 hx).1
  refine ⟨p1, (p2.map _).nodup_iff.2 hn, sids, ?_, by rw [update_session, update_session]; exact h.session, fun w => ?_⟩
  · intro d hd
    obtain ⟨w, hw⟩ := (mem_zip_config sids d).1 hd
    have := ((update_mem h.ids' _ hn' w d).1 hw).1
    exact of_decide_eq_true (List.mem_filter.1 this).2
  · rw [update_mem h.ids ec hn, update_mem h.ids' _ hn', h.state w, mem_zip_config h.ids c, mem_zip_config h.ids' c]
    simp only [List.mem_filter, decide_true, and_true]
    rw [exists_congr h.state]

theorem Solo.apply {c : Config} {x y : Metered} (h : Solo c x.e y.e) (lim : Nat) (op : Op) (hs : op.starts = false) (hd : Distinct [op])
    (hx : (x.apply op).m.limitHit = 0) (hy : (y.apply (only c lim op)).m.limitHit = 0) :
    Solo c (x.apply op).e (y.apply (only c lim op)).e := by
  have hd := hd op (List.mem_singleton.2 rfl)
  rw [apply_e, apply_e]
  cases op with
  | start => cases hs
  | update ec => exact h.update ec hd
  | log l d v =>
    exact (h.enter l.session).handle l d v (processLog_hit x l d v hx).2 (processLog_hit y l d v hy).2
  | approved p ok =>
    have key : ∀ e : Engine, (e.approved p ok).configs = e.configs ∧ (e.approved p ok).workflows = e.workflows ∧
        (e.approved p ok).session = e.session := by
      intro e
      unfold Engine.approved
      dsimp only
      split
      · split <;> exact ⟨rfl, rfl, rfl⟩
      · exact ⟨rfl, rfl, rfl⟩
    show Solo c (x.e.approved p ok) (y.e.approved p ok)
    obtain ⟨a1, a2, a3⟩ := key x.e
    obtain ⟨b1, b2, b3⟩ := key y.e
    exact ⟨by rw [a1, a2]; exact h.ids, by rw [a1]; exact h.nodup, by rw [b1, b2]; exact h.ids', by rw [b1]; exact h.lone,
      by rw [a3, b3]; exact h.session, by rw [a1, a2, b1, b2]; exact h.state⟩
  | rejected p => exact ⟨h.ids, h.nodup, h.ids', h.lone, h.session, h.state⟩
  | flushed id => exact ⟨h.ids, h.nodup, h.ids', h.lone, h.session, h.state⟩
  | persist due out =>
    have key : ∀ e : Engine, (e.persist due out).configs = e.configs ∧ (e.persist due out).workflows = e.workflows ∧
        (e.persist due out).session = e.session := by
      intro e
      unfold Engine.persist
      split <;> exact ⟨rfl, rfl, rfl⟩
    show Solo c (x.e.persist due out) (y.e.persist due out)
    obtain ⟨a1, a2, a3⟩ := key x.e
    obtain ⟨b1, b2, b3⟩ := key y.e
    exact ⟨by rw [a1, a2]; exact h.ids, by rw [a1]; exact h.nodup, by rw [b1, b2]; exact h.ids', by rw [b1]; exact h.lone,
      by rw [a3, b3]; exact h.session, by rw [a1, a2, b1, b2]; exact h.state⟩

/-- A process that starts without stored state. -/
theorem start_fresh (e : Engine) (limit : Nat) (oks : List Bool) (ec : EngineCfg) :
    (e.start limit false oks ec).session = "" ∧ (e.start limit false oks ec).emitted = [] ∧
    (e.start limit false oks ec).workflows = ec.configs.map fun c => { id := c.id } := by
  have key : ∀ (cs : List Config) (e : Engine), (e.addWorkflows [] cs).session = e.session ∧ (e.addWorkflows [] cs).emitted = e.emitted ∧
      (e.addWorkflows [] cs).workflows = e.workflows ++ cs.map fun c => { id := c.id } := by
    intro cs
    induction cs with
    | nil => intro e; simp [Engine.addWorkflows]
    | cons c cs ih =>
      intro e
      simp only [Engine.addWorkflows, findWorkflow]
      obtain ⟨h1, h2, h3⟩ := ih (e.addWorkflow { id := c.id } c)
      rw [h1, h2, h3]
      simp [Engine.addWorkflow, dropRuns_nil]
  unfold Engine.start
  dsimp only
  obtain ⟨h1, h2, h3⟩ := key ec.configs { limit := limit, triggers := ec.triggers, conts := ec.conts, disk := none }
  exact ⟨h1, h2, by simpa using h3⟩

theorem zip_fresh (cs : List Config) : (cs.map fun c => ({ id := c.id } : Workflow)).zip cs = cs.map fun c => (({ id := c.id } : Workflow), c) := by
  induction cs with
  | nil => rfl
  | cons a l ih => simp [ih]

theorem Solo.start (c : Config) (e s : Engine) (limit lim : Nat) (oks : List Bool) (ec : EngineCfg) (hn : (ec.configs.map (·.id)).Nodup) :
    Solo c (e.start limit false oks ec) (s.start lim false oks { ec with configs := ec.configs.filter (· = c) }) := by
  obtain ⟨e1, e2⟩ := start_lists e limit false oks ec
  obtain ⟨s1, s2⟩ := start_lists s lim false oks { ec with configs := ec.configs.filter (· = c) }
  obtain ⟨f1, _, f3⟩ := start_fresh e limit oks ec
  obtain ⟨g1, _, g3⟩ := start_fresh s lim oks { ec with configs := ec.configs.filter (· = c) }
  refine ⟨by rw [e1, e2], by rw [e1]; exact hn, by rw [s1, s2], ?_, by rw [f1, g1], fun w => ?_⟩
  · rw [s1]
    intro d hd
    exact of_decide_eq_true (List.mem_filter.1 hd).2
  · rw [e1, f3, s1, g3]
    dsimp only
    rw [zip_fresh, zip_fresh]
    simp only [List.mem_map, List.mem_filter, decide_eq_true_eq, Prod.mk.injEq]
    constructor
    · rintro ⟨d, hd, h1, rfl⟩; exact ⟨d, ⟨hd, rfl⟩, h1, rfl⟩
    · rintro ⟨d, ⟨hd, _⟩, h1, rfl⟩; exact ⟨d, hd, h1, rfl⟩

/-- What a process with all workflows emitted is what processes with one each emitted. -/
structure Sum (H : List Config) (e : Engine) (s : Config → Engine) : Prop where
  solo : ∀ c ∈ H, Solo c e (s c)
  sub : ∀ c ∈ e.configs, c ∈ H
  emitted : ∀ x, x ∈ e.emitted ↔ ∃ c ∈ H, x ∈ (s c).emitted

theorem enter_emitted (e : Engine) (s : String) : (e.enter s).emitted = e.emitted := by
  unfold Engine.enter
  split
  · rfl
  · split <;> rfl

theorem update_emitted (e : Engine) (ec : EngineCfg) : (e.update ec).emitted = e.emitted := by
  have key : ∀ (cs : List Config) (e : Engine), (cs.foldl (fun e c => e.addWorkflow { id := c.id } c) e).emitted = e.emitted := by
    intro cs
    induction cs with
    | nil => intro e; rfl
    | cons c cs ih => intro e; simp only [List.foldl_cons]; rw [ih]; rfl
  unfold Engine.update Engine.updateWorkflows
  dsimp only
  rw [key]
  rfl

theorem Sum.apply {H : List Config} {x : Metered} {y : Config → Metered} (h : Sum H x.e (fun c => (y c).e)) (lim : Config → Nat) (op : Op)
    (hs : op.starts = false) (hd : Distinct [op]) (hH : ∀ c ∈ op.configs, c ∈ H)
    (hx : (x.apply op).m.limitHit = 0) (hy : ∀ c ∈ H, ((y c).apply (only c (lim c) op)).m.limitHit = 0) :
    Sum H (x.apply op).e (fun c => ((y c).apply (only c (lim c) op)).e) := by
  refine ⟨fun c hc => (h.solo c hc).apply (lim c) op hs hd hx (hy c hc), ?_, ?_⟩
  · have hd' := hd op (List.mem_singleton.2 rfl)
    rw [apply_e]
    intro c hc
    cases op with
    | start => cases hs
    | update ec =>
      have hi : x.e.workflows.map (·.id) = x.e.configs.map (·.id) ∨ True := .inr trivial
      obtain ⟨h1, _⟩ := update_lists x.e ec
      change c ∈ (x.e.update ec).configs at hc
      rw [h1] at hc
      rcases List.mem_append.1 hc with hc | hc
      · obtain ⟨z, hz, rfl⟩ := List.mem_map.1 hc
        have := (List.mem_filter.1 hz).2
        simp only [beq_iff_eq] at this
        exact hH _ (findConfig_mem this).1
      · exact hH _ (List.mem_filter.1 hc).1
    | log l d v =>
      change c ∈ ((x.e.enter l.session).handle l d v).1.configs at hc
      rw [(handle_facts _ l d v).1, (enter_lists x.e l.session).1] at hc
      exact h.sub c hc
    | approved p ok =>
      have : (x.e.approved p ok).configs = x.e.configs := by
        unfold Engine.approved
        dsimp only
        split
        · split <;> rfl
        · rfl
      change c ∈ (x.e.approved p ok).configs at hc
      rw [this] at hc
      exact h.sub c hc
    | rejected p => exact h.sub c hc
    | flushed id => exact h.sub c hc
    | persist due out =>
      have : (x.e.persist due out).configs = x.e.configs := by
        unfold Engine.persist
        split <;> rfl
      change c ∈ (x.e.persist due out).configs at hc
      rw [this] at hc
      exact h.sub c hc
  · intro z
    rw [apply_e]
    simp only [apply_e]
    cases op with
    | start => cases hs
    | update ec =>
      show z ∈ (x.e.update ec).emitted ↔ _
      rw [update_emitted, h.emitted]
      constructor
      · rintro ⟨c, hc, hz⟩
        exact ⟨c, hc, by show z ∈ ((y c).e.update _).emitted; rw [update_emitted]; exact hz⟩
      · rintro ⟨c, hc, hz⟩
        change z ∈ ((y c).e.update _).emitted at hz
        rw [update_emitted] at hz
        exact ⟨c, hc, hz⟩
    | log l d v =>
      show z ∈ ((x.e.enter l.session).handle l d v).1.emitted ↔ ∃ c ∈ H, z ∈ (((y c).e.enter l.session).handle l d v).1.emitted
      have hx' := (processLog_hit x l d v hx).2
      have key : ∀ c ∈ H, _ := fun c hc => ((h.solo c hc).enter l.session).trail l hx' (processLog_hit (y c) l d v (hy c hc)).2
      rw [(handle_facts _ l d v).2.2.2, enter_emitted, h.emitted]
      constructor
      · rintro (⟨c, hc, hz⟩ | ⟨⟨w, c, a⟩, ha, t, ht, hz⟩)
        · exact ⟨c, hc, by rw [(handle_facts _ l d v).2.2.2, enter_emitted]; exact .inl hz⟩
        · have hc : c ∈ H := by
            have hm : (w, c) ∈ (x.e.enter l.session).workflows.zip (x.e.enter l.session).configs := by
              obtain ⟨_, _, _, t4, _⟩ := trail_facts (x.e.enter l.session).limit l
                ((x.e.enter l.session).workflows.zip (x.e.enter l.session).configs) (x.e.enter l.session).count
              rw [← t4]
              exact List.mem_map.2 ⟨_, ha, rfl⟩
            have := (List.of_mem_zip hm).2
            rw [(enter_lists x.e l.session).1] at this
            exact h.sub c this
          obtain ⟨b, hb, _, hq⟩ := (key c hc w).1 a ha
          refine ⟨c, hc, ?_⟩
          rw [(handle_facts _ l d v).2.2.2, enter_emitted]
          exact .inr ⟨_, hb, t, by dsimp only; rw [← hq]; exact ht, hz⟩
      · rintro ⟨c, hc, hz⟩
        rw [(handle_facts _ l d v).2.2.2, enter_emitted] at hz
        rcases hz with hz | ⟨⟨w, c', b⟩, hb, t, ht, hz⟩
        · exact .inl ⟨c, hc, hz⟩
        · have hcc : c' = c := by
            have hm : (w, c') ∈ ((y c).e.enter l.session).workflows.zip ((y c).e.enter l.session).configs := by
              obtain ⟨_, _, _, t4, _⟩ := trail_facts ((y c).e.enter l.session).limit l
                (((y c).e.enter l.session).workflows.zip ((y c).e.enter l.session).configs) ((y c).e.enter l.session).count
              rw [← t4]
              exact List.mem_map.2 ⟨_, hb, rfl⟩
            exact ((h.solo c hc).enter l.session).lone _ (List.of_mem_zip hm).2
          subst hcc
          obtain ⟨a, ha, _, hq⟩ := (key c' hc w).2 b hb
          exact .inr ⟨_, ha, t, by dsimp only; rw [hq]; exact ht, hz⟩
    | approved p ok =>
      have key : ∀ e : Engine, (e.approved p ok).emitted = e.emitted := by
        intro e
        unfold Engine.approved
        dsimp only
        split
        · split <;> rfl
        · rfl
      show z ∈ (x.e.approved p ok).emitted ↔ ∃ c ∈ H, z ∈ ((y c).e.approved p ok).emitted
      simp only [key]
      exact h.emitted z
    | rejected p => exact h.emitted z
    | flushed id => exact h.emitted z
    | persist due out =>
      have key : ∀ e : Engine, (e.persist due out).emitted = e.emitted := by
        intro e
        unfold Engine.persist
        split <;> rfl
      show z ∈ (x.e.persist due out).emitted ↔ ∃ c ∈ H, z ∈ ((y c).e.persist due out).emitted
      simp only [key]
      exact h.emitted z

theorem Sum.run {H : List Config} (lim : Config → Nat) : ∀ (ops : List Op) (x : Metered) (y : Config → Metered),
    Sum H x.e (fun c => (y c).e) → (∀ op ∈ ops, op.starts = false) → Distinct ops → (∀ op ∈ ops, ∀ c ∈ op.configs, c ∈ H) →
    (x.run ops).m.limitHit = 0 → (∀ c ∈ H, ((y c).run (ops.map (only c (lim c)))).m.limitHit = 0) →
    Sum H (x.run ops).e (fun c => ((y c).run (ops.map (only c (lim c)))).e) := by
  intro ops
  induction ops with
  | nil => intro x y h _ _ _ _ _; exact h
  | cons op ops ih =>
    intro x y h hs hd hH hx hy
    have hs' : ∀ op ∈ ops, op.starts = false := fun o ho => hs o (List.mem_cons_of_mem _ ho)
    have honly : ∀ c, ∀ o ∈ ops.map (only c (lim c)), o.starts = false := by
      intro c o ho
      obtain ⟨o', ho', rfl⟩ := List.mem_map.1 ho
      have := hs' o' ho'
      cases o' <;> first | rfl | cases this
    refine ih (x.apply op) (fun c => (y c).apply (only c (lim c) op)) ?_ hs' (fun o ho => hd o (List.mem_cons_of_mem _ ho))
      (fun o ho => hH o (List.mem_cons_of_mem _ ho)) hx hy
    exact h.apply lim op (hs op (List.mem_cons_self ..)) (fun o ho => hd o (by rw [List.mem_singleton.1 ho]; exact List.mem_cons_self ..))
      (hH op (List.mem_cons_self ..)) (run_hit ops _ hs' hx) (fun c hc => run_hit _ _ (honly c) (hy c hc))

/-- C115.  A process that starts without stored state and goes through any history of logs, updates, negotiations, flushes and saves.  Beside it,
for each workflow, a process that is given only this one whenever the first is given it, and otherwise the same inputs; its limit may be any.
As long as no limit on traversals is hit (the counters of the engines say so), every workflow is in the same state as when it is
alone, and what is emitted is what the workflows would emit if each was alone. -/
theorem C115_alone (limit : Nat) (lim : Config → Nat) (oks : List Bool) (ec : EngineCfg) (ops : List Op) (hs : ∀ op ∈ ops, op.starts = false)
    (hd : Distinct (.start limit false oks ec :: ops)) :
    let all := ({} : Metered).run (.start limit false oks ec :: ops)
    let alone := fun c => ({} : Metered).run ((Op.start limit false oks ec :: ops).map (only c (lim c)))
    let given := histConfigs (.start limit false oks ec :: ops)
    all.m.limitHit = 0 → (∀ c ∈ given, (alone c).m.limitHit = 0) →
    (∀ c ∈ given, ∀ w, (w, c) ∈ all.e.workflows.zip all.e.configs ↔ (w, c) ∈ (alone c).e.workflows.zip (alone c).e.configs) ∧
    (∀ x, x ∈ all.e.emitted ↔ ∃ c ∈ given, x ∈ (alone c).e.emitted) := by
  intro all alone given hx hy
  have hn : (ec.configs.map (·.id)).Nodup := hd (.start limit false oks ec) (List.mem_cons_self ..)
  have h0 : Sum given (({} : Metered).apply (.start limit false oks ec)).e
      (fun c => (({} : Metered).apply (only c (lim c) (.start limit false oks ec))).e) := by
    refine ⟨fun c _ => ?_, fun c hc => ?_, fun x => ?_⟩
    · rw [apply_e, apply_e]
      exact Solo.start c {} {} limit (lim c) oks ec hn
    · rw [apply_e] at hc
      change c ∈ (Engine.start {} limit false oks ec).configs at hc
      rw [(start_lists _ limit false oks ec).1] at hc
      exact mem_histConfigs (.start limit false oks ec) (List.mem_cons_self ..) c hc
    · rw [apply_e]
      simp only [apply_e]
      show x ∈ (Engine.start {} limit false oks ec).emitted ↔ ∃ c ∈ given, x ∈ (Engine.start {} (lim c) false oks _).emitted
      rw [(start_fresh _ limit oks ec).2.1]
      constructor
      · intro hx; cases hx
      · rintro ⟨c, _, hx⟩
        rw [(start_fresh _ (lim c) oks _).2.1] at hx
        cases hx
  have h := Sum.run lim ops _ _ h0 hs (fun o ho => hd o (List.mem_cons_of_mem _ ho))
    (fun o ho c hc => mem_histConfigs o (List.mem_cons_of_mem _ ho) c hc) hx hy
  exact ⟨fun c hc w => (h.solo c hc).state w, h.emitted⟩

/-! ### From any stored state -/

theorem kept_all (e : Engine) (w : Workflow) (h : w.runs.length - (keptRuns e w).length = 0) : keptRuns e w = w.runs := by
  unfold keptRuns at h ⊢
  split
  · rename_i hc
    rw [if_pos hc] at h
    obtain ⟨k, hk⟩ := dropRuns_prefix e.limit e.count w.runs.length w.runs
    rw [hk] at h ⊢
    rw [List.length_take] at h
    exact List.take_of_length_le (by omega)
  · rfl

theorem addWorkflows_hit : ∀ (cs : List Config) (saved : List Workflow) (x : Metered),
    (x.addWorkflows saved cs).m.limitHit = 0 → x.m.limitHit = 0 := by
  intro cs
  induction cs with
  | nil => intro saved x h; exact h
  | cons c cs ih =>
    intro saved x h
    unfold Metered.addWorkflows at h
    split at h
    · have := ih _ _ h
      simp only [Metered.addWorkflow] at this
      omega
    · have := ih _ _ h
      simp only [Metered.addWorkflow] at this
      omega

/-- Without a hit of the limit every workflow gets what was stored for it. -/
theorem addWorkflows_restored : ∀ (cs : List Config) (saved : List Workflow) (x : Metered), (cs.map (·.id)).Nodup →
    (x.addWorkflows saved cs).m.limitHit = 0 →
    (x.addWorkflows saved cs).e.workflows = x.e.workflows ++ cs.map (fun c => (findWorkflow c.id saved).getD { id := c.id }) ∧
    (x.addWorkflows saved cs).e.session = x.e.session ∧ (x.addWorkflows saved cs).e.emitted = x.e.emitted := by
  intro cs
  induction cs with
  | nil => intro saved x _ _; simp [Metered.addWorkflows]
  | cons c cs ih =>
    intro saved x hn h
    rw [List.map_cons, List.nodup_cons] at hn
    have hw : ∀ w : Workflow, (x.addWorkflow w c).m.limitHit = 0 → (x.addWorkflow w c).e.workflows = x.e.workflows ++ [w] := by
      intro w h0
      simp only [Metered.addWorkflow] at h0
      have hr : (x.addWorkflow w c).e.workflows = x.e.workflows ++ [{ w with runs := keptRuns x.e w }] := rfl
      rw [hr, kept_all x.e w (by omega)]
    cases hf : findWorkflow c.id saved with
    | none =>
      simp only [Metered.addWorkflows, hf] at h ⊢
      obtain ⟨h1, h2, h3⟩ := ih saved _ hn.2 h
      refine ⟨?_, h2, h3⟩
      rw [h1, hw _ (addWorkflows_hit _ _ _ h)]
      simp [hf]
    | some w =>
      simp only [Metered.addWorkflows, hf] at h ⊢
      obtain ⟨h1, h2, h3⟩ := ih (saved.filter (·.id ≠ c.id)) _ hn.2 h
      refine ⟨?_, h2, h3⟩
      rw [h1, hw _ (addWorkflows_hit _ _ _ h)]
      have : (cs.map fun d => (findWorkflow d.id (saved.filter (·.id ≠ c.id))).getD { id := d.id }) =
          cs.map fun d => (findWorkflow d.id saved).getD { id := d.id } := by
        refine List.map_congr_left fun d hd => ?_
        rw [findWorkflow_filter c.id d.id (fun he => hn.1 (he ▸ List.mem_map_of_mem hd))]
      rw [this]
      simp [hf]

/-- What a start makes of the file. -/
theorem start_restored (x : Metered) (limit : Nat) (readable : Bool) (oks : List Bool) (ec : EngineCfg) (hn : (ec.configs.map (·.id)).Nodup)
    (h : (x.start limit readable oks ec).m.limitHit = 0) :
    (x.e.start limit readable oks ec).workflows = ec.configs.map (fun c =>
      (findWorkflow c.id (((if readable then x.e.disk else none).map (·.workflows)).getD [])).getD { id := c.id }) ∧
    (x.e.start limit readable oks ec).session = ((if readable then x.e.disk else none).map (·.session)).getD "" ∧
    (x.e.start limit readable oks ec).emitted = [] := by
  rw [← start_e]
  unfold Metered.start at h ⊢
  dsimp only at h ⊢
  cases hd : (if readable then x.e.disk else none) with
  | none =>
    simp only [hd] at h ⊢
    obtain ⟨h1, h2, h3⟩ := addWorkflows_restored ec.configs [] _ hn h
    exact ⟨by rw [h1]; rfl, h2, h3⟩
  | some s =>
    simp only [hd] at h ⊢
    obtain ⟨h1, h2, h3⟩ := addWorkflows_restored ec.configs s.workflows _ hn h
    exact ⟨by rw [h1]; rfl, h2, h3⟩

theorem Solo.restored (c : Config) (x : Metered) (limit lim : Nat) (readable : Bool) (oks : List Bool) (ec : EngineCfg)
    (hn : (ec.configs.map (·.id)).Nodup) (hx : (x.start limit readable oks ec).m.limitHit = 0)
    (hy : (x.start lim readable oks { ec with configs := ec.configs.filter (· = c) }).m.limitHit = 0) :
    Solo c (x.e.start limit readable oks ec) (x.e.start lim readable oks { ec with configs := ec.configs.filter (· = c) }) := by
  obtain ⟨e1, e2⟩ := start_lists x.e limit readable oks ec
  obtain ⟨s1, s2⟩ := start_lists x.e lim readable oks { ec with configs := ec.configs.filter (· = c) }
  obtain ⟨f1, f2, _⟩ := start_restored x limit readable oks ec hn hx
  obtain ⟨g1, g2, _⟩ := start_restored x lim readable oks { ec with configs := ec.configs.filter (· = c) } (filter_nodup hn c) hy
  have hz : ∀ (f : Config → Workflow) (cs : List Config), (cs.map f).zip cs = cs.map fun d => (f d, d) := by
    intro f cs
    induction cs with
    | nil => rfl
    | cons a l ih => simp [ih]
  refine ⟨by rw [e1, e2], by rw [e1]; exact hn, by rw [s1, s2], ?_, by rw [f2, g2], fun w => ?_⟩
  · rw [s1]
    intro d hd
    exact of_decide_eq_true (List.mem_filter.1 hd).2
  · rw [e1, f1, s1, g1]
    dsimp only
    rw [hz, hz]
    simp only [List.mem_map, List.mem_filter, decide_eq_true_eq, Prod.mk.injEq]
    constructor
    · rintro ⟨d, hd, h1, rfl⟩; exact ⟨d, ⟨hd, rfl⟩, h1, rfl⟩
    · rintro ⟨d, ⟨hd, _⟩, h1, rfl⟩; exact ⟨d, hd, h1, rfl⟩

theorem restored_sum (disk : Option Saved) (limit : Nat) (lim : Config → Nat) (readable : Bool) (oks : List Bool) (ec : EngineCfg) (ops : List Op)
    (hs : ∀ op ∈ ops, op.starts = false) (hd : Distinct (.start limit readable oks ec :: ops)) :
    let found : Metered := { e := { disk := disk } }
    let all := found.run (.start limit readable oks ec :: ops)
    let alone := fun c => found.run ((Op.start limit readable oks ec :: ops).map (only c (lim c)))
    let given := histConfigs (.start limit readable oks ec :: ops)
    all.m.limitHit = 0 → (∀ c ∈ given, (alone c).m.limitHit = 0) →
    Sum given all.e (fun c => (alone c).e) := by
  intro found all alone given hx hy
  have hn : (ec.configs.map (·.id)).Nodup := hd (.start limit readable oks ec) (List.mem_cons_self ..)
  have honly : ∀ c, ∀ o ∈ ops.map (only c (lim c)), o.starts = false := by
    intro c o ho
    obtain ⟨o', ho', rfl⟩ := List.mem_map.1 ho
    have := hs o' ho'
    cases o' <;> first | rfl | cases this
  have hx0 : (found.start limit readable oks ec).m.limitHit = 0 := run_hit ops _ hs hx
  have hy0 : ∀ c ∈ given, (found.start (lim c) readable oks { ec with configs := ec.configs.filter (· = c) }).m.limitHit = 0 :=
    fun c hc => run_hit _ _ (honly c) (hy c hc)
  have h0 : Sum given (found.apply (.start limit readable oks ec)).e
      (fun c => (found.apply (only c (lim c) (.start limit readable oks ec))).e) := by
    refine ⟨fun c hc => ?_, fun c hc => ?_, fun x => ?_⟩
    · rw [apply_e, apply_e]
      exact Solo.restored c found limit (lim c) readable oks ec hn hx0 (hy0 c hc)
    · rw [apply_e] at hc
      change c ∈ (found.e.start limit readable oks ec).configs at hc
      rw [(start_lists _ limit readable oks ec).1] at hc
      exact mem_histConfigs (.start limit readable oks ec) (List.mem_cons_self ..) c hc
    · rw [apply_e]
      simp only [apply_e]
      show x ∈ (found.e.start limit readable oks ec).emitted ↔ ∃ c ∈ given, x ∈ (found.e.start (lim c) readable oks _).emitted
      rw [(start_restored found limit readable oks ec hn hx0).2.2]
      constructor
      · intro hx; cases hx
      · rintro ⟨c, hc, hx⟩
        rw [(start_restored found (lim c) readable oks { ec with configs := ec.configs.filter (· = c) } (filter_nodup hn c) (hy0 c hc)).2.2] at hx
        cases hx
  exact Sum.run lim ops _ _ h0 hs (fun o ho => hd o (List.mem_cons_of_mem _ ho))
    (fun o ho c hc => mem_histConfigs o (List.mem_cons_of_mem _ ho) c hc) hx hy

/-- C115, from any stored state: the processes with all workflows and with one each find the same file, whatever is in it.  What is
restored counts: runs that are dropped because of the limit are hits of it. -/
theorem C115_restored (disk : Option Saved) (limit : Nat) (lim : Config → Nat) (readable : Bool) (oks : List Bool) (ec : EngineCfg) (ops : List Op)
    (hs : ∀ op ∈ ops, op.starts = false) (hd : Distinct (.start limit readable oks ec :: ops)) :
    let found : Metered := { e := { disk := disk } }
    let all := found.run (.start limit readable oks ec :: ops)
    let alone := fun c => found.run ((Op.start limit readable oks ec :: ops).map (only c (lim c)))
    let given := histConfigs (.start limit readable oks ec :: ops)
    all.m.limitHit = 0 → (∀ c ∈ given, (alone c).m.limitHit = 0) →
    (∀ c ∈ given, ∀ w, (w, c) ∈ all.e.workflows.zip all.e.configs ↔ (w, c) ∈ (alone c).e.workflows.zip (alone c).e.configs) ∧
    (∀ x, x ∈ all.e.emitted ↔ ∃ c ∈ given, x ∈ (alone c).e.emitted) := by
  intro found all alone given hx hy
  have h := restored_sum disk limit lim readable oks ec ops hs hd hx hy
  exact ⟨fun c hc w => (h.solo c hc).state w, h.emitted⟩

theorem enter_cut (e : Engine) (s : String) : ({ e with emitted := [] } : Engine).enter s = { e.enter s with emitted := [] } := by
  unfold Engine.enter
  dsimp only
  split
  · rfl
  · split <;> rfl

/-- What the engine writes to its sinks does not depend on what it has written before. -/
theorem log_appends (e : Engine) (l : Log) (d : List String) (v : LogEnv) :
    (e.apply (.log l d v)).emitted = e.emitted ++ (({ e with emitted := [] } : Engine).apply (.log l d v)).emitted := by
  show (((e.enter l.session).handle l d v).1).emitted =
    e.emitted ++ (((({ e with emitted := [] } : Engine).enter l.session).handle l d v).1).emitted
  rw [enter_cut, ← enter_emitted e l.session]
  generalize e.enter l.session = f
  unfold Engine.handle
  dsimp only
  split
  · simp
  · simp [List.append_assoc]

/-- C115, log by log: what a log adds to the emissions of the process with all workflows is what it adds to those of the processes with
one workflow each, put together.  So a workflow that emits the same thing for ten logs alone does so for the same ten logs among others. -/
theorem C115_each_log (disk : Option Saved) (limit : Nat) (lim : Config → Nat) (readable : Bool) (oks : List Bool) (ec : EngineCfg) (ops : List Op)
    (l : Log) (d : List String) (v : LogEnv) (hs : ∀ op ∈ ops, op.starts = false) (hd : Distinct (.start limit readable oks ec :: ops)) :
    let found : Metered := { e := { disk := disk } }
    let all := found.run (.start limit readable oks ec :: ops)
    let alone := fun c => found.run ((Op.start limit readable oks ec :: ops).map (only c (lim c)))
    let given := histConfigs (.start limit readable oks ec :: ops)
    (all.apply (.log l d v)).m.limitHit = 0 → (∀ c ∈ given, ((alone c).apply (.log l d v)).m.limitHit = 0) →
    ∃ (new : List Emitted) (own : Config → List Emitted),
      (all.apply (.log l d v)).e.emitted = all.e.emitted ++ new ∧
      (∀ c ∈ given, ((alone c).apply (.log l d v)).e.emitted = (alone c).e.emitted ++ own c) ∧
      (∀ x, x ∈ new ↔ ∃ c ∈ given, x ∈ own c) := by
  intro found all alone given hx hy
  have h := restored_sum disk limit lim readable oks ec ops hs hd (apply_hit all _ rfl hx) (fun c hc => apply_hit (alone c) _ rfl (hy c hc))
  let cut : Metered → Metered := fun x => { x with e := { x.e with emitted := [] } }
  have hm : ∀ x : Metered, ((cut x).apply (.log l d v)).m.limitHit = (x.apply (.log l d v)).m.limitHit := by
    intro x
    show (({ cut x with e := (cut x).e.enter l.session } : Metered).handle l d v).m.limitHit =
      (({ x with e := x.e.enter l.session } : Metered).handle l d v).m.limitHit
    have he : (cut x).e.enter l.session = { x.e.enter l.session with emitted := [] } := enter_cut x.e l.session
    rw [he]
    generalize x.e.enter l.session = f
    unfold Metered.handle
    dsimp only
    split <;> rfl
  have h' : Sum given (cut all).e (fun c => (cut (alone c)).e) := by
    refine ⟨fun c hc => ?_, h.sub, fun x => ⟨fun hx => (nomatch hx), fun ⟨_, _, hx⟩ => (nomatch hx)⟩⟩
    have s := h.solo c hc
    exact ⟨s.ids, s.nodup, s.ids', s.lone, s.session, s.state⟩
  have g := h'.apply (y := fun c => cut (alone c)) lim (.log l d v) rfl (fun o ho => by rw [List.mem_singleton.1 ho]; exact trivial)
    (fun c hc => (nomatch hc)) (by rw [hm]; exact hx) (fun c hc => by
      show ((cut (alone c)).apply (.log l d v)).m.limitHit = 0
      rw [hm]; exact hy c hc)
  refine ⟨((cut all).apply (.log l d v)).e.emitted, fun c => ((cut (alone c)).apply (.log l d v)).e.emitted, ?_, fun c _ => ?_, g.emitted⟩
  · rw [apply_e, apply_e]; exact log_appends ..
  · dsimp only
    rw [apply_e, apply_e]; exact log_appends ..

/-- A history for `C115_alone`: two workflows, one of them taken away and given back; no limit is hit, and both emit. -/
example :
    let one : Config := Ex.tallying "w1"
    let two : Config := { Ex.growing with states := [⟨"0", [⟨1, .logMatch 7 2, [.metric ⟨"k", [], .fixed 4, false⟩], []⟩]⟩, ⟨"1", [⟨0, .logMatch 8 1, [], []⟩]⟩] }
    let l : List Nat → Op := fun h => .log { session := "s", time := 0, hits := h, fields := [("n", "12")], level := "3" } [] { parse := [("12", 12)] }
    let ops : List Op := [l [7], .update ⟨[two], [], []⟩, l [7], .update ⟨[two, one], [], []⟩, Ex.log [7, 8]]
    let all := ({} : Metered).run (.start 9 false [] ⟨[one, two], [], []⟩ :: ops)
    let alone := fun c => ({} : Metered).run ((Op.start 9 false [] ⟨[one, two], [], []⟩ :: ops).map (only c 3))
    (∀ op ∈ ops, op.starts = false) ∧ all.m.limitHit = 0 ∧ (alone one).m.limitHit = 0 ∧ (alone two).m.limitHit = 0 ∧
    all.e.emitted.map (fun x => (x.name, x.value)) =
      [("workflows_dyn:action", 1), ("workflows_dyn:histogram", 12), ("workflows_dyn:action", 4), ("workflows_dyn:action", 4), ("workflows_dyn:action", 1)] ∧
    (alone two).e.emitted.map (fun x => (x.name, x.value)) = [("workflows_dyn:action", 4), ("workflows_dyn:action", 4)] := by decide +kernel

/-- A history for `C115_restored`: the file holds a workflow that has seen one of the two logs it waits for, and one that nobody configures
any more; the second log makes it emit, also when it is alone. -/
example :
    let one : Config := Ex.tallying "w1"
    let two : Config := { Ex.growing with states := [⟨"0", [⟨1, .logMatch 7 2, [.metric ⟨"k", [], .fixed 4, false⟩], []⟩]⟩, ⟨"1", [⟨0, .logMatch 8 1, [], []⟩]⟩] }
    let gone : Config := { two with id := "gone" }
    let l : Op := .log { session := "s", time := 0, hits := [7], fields := [("n", "12")], level := "3" } [] { parse := [("12", 12)] }
    let found : Metered := { e := { disk := (({} : Metered).run [.start 9 false [] ⟨[two, gone], [], []⟩, l, .persist true .ok]).e.disk } }
    let ops : List Op := [l]
    let all := found.run (.start 9 true [] ⟨[one, two], [], []⟩ :: ops)
    let alone := fun c => found.run ((Op.start 9 true [] ⟨[one, two], [], []⟩ :: ops).map (only c 3))
    (∀ op ∈ ops, op.starts = false) ∧ all.m.limitHit = 0 ∧ (alone one).m.limitHit = 0 ∧ (alone two).m.limitHit = 0 ∧
    (found.e.disk.map fun s => s.workflows.map (·.id)) = some [two.id, "gone"] ∧
    all.e.emitted.map (fun x => (x.name, x.value)) =
      [("workflows_dyn:action", 1), ("workflows_dyn:histogram", 12), ("workflows_dyn:action", 4)] ∧
    (alone two).e.emitted.map (fun x => (x.name, x.value)) = [("workflows_dyn:action", 4)] := by decide +kernel

/-- The limit is the way by which workflows influence each other: with it the second workflow emits nothing, alone it does. -/
example :
    let one : Config := Ex.growing
    let two : Config := { Ex.tallying "w1" with id := "w1" }
    let ops : List Op := [.log { session := "s", time := 0, hits := [7], level := "3" } [] {}]
    let all := ({} : Metered).run (.start 1 false [] ⟨[one, two], [], []⟩ :: ops)
    let alone := ({} : Metered).run ((Op.start 1 false [] ⟨[one, two], [], []⟩ :: ops).map (only two 1))
    all.m.limitHit = 1 ∧ all.e.emitted = [] ∧ alone.m.limitHit = 0 ∧ alone.e.emitted.length = 1 := by decide +kernel

/-- A log for `C115_each_log`: the second log makes the workflow "w1" emit again what it emitted for the first. -/
example :
    let one : Config := { Ex.tallying "w1" with states := [⟨"A", [⟨0, .logMatch 7 1, [.metric ⟨"k", [], .fixed 4, false⟩], []⟩]⟩] }
    let two : Config := { one with id := "w2", states := [⟨"A", [⟨0, .logMatch 8 1, [.metric ⟨"j", [], .fixed 5, false⟩], []⟩]⟩] }
    let ec : EngineCfg := ⟨[one, two], [], []⟩
    let all := ({} : Metered).run [.start 9 true [] ec, Ex.log [7]]
    (all.apply (Ex.log [7, 8])).m.limitHit = 0 ∧
    all.e.emitted.map (·.value) = [4] ∧ (all.apply (Ex.log [7, 8])).e.emitted.map (·.value) = [4, 4, 5] := by decide +kernel

end Verif.Wf
