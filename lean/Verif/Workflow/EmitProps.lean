import Verif.Workflow.PendingProps

/-!
C67: what is recorded for a log.
-/
namespace Verif.Wf

/-- What a field of a log is for a metric. -/
def fieldIs (log : Log) (key v : String) : Prop :=
  (key = "log_level" ∧ v = log.level) ∨ (key = "log_type" ∧ v = log.type) ∨
  (key ≠ "log_level" ∧ key ≠ "log_type" ∧ lookup key log.fields = some v)

/-- What a tag of an action is for a log. -/
def tagIs (log : Log) (tags : List (String × TagValue)) (k v : String) : Prop :=
  (k, TagValue.fixed v) ∈ tags ∨ ∃ f, (k, TagValue.extract f) ∈ tags ∧ fieldIs log f v

/-- The value that a metric is to be recorded with. -/
def valueIs (parse : String → Option Nat) (log : Log) (a : MetricCfg) (n : Nat) : Prop :=
  a.increment = .fixed n ∨ ∃ f s, a.increment = .extract f ∧ fieldIs log f s ∧ parse s = some n

/-- The record for a metric: its name by its type, its value, and its tags, of which the identifier is one. -/
structure MetricRecord (parse : String → Option Nat) (log : Log) (a : MetricCfg) (r : Emitted) : Prop where
  name : r.name = if a.histogram then "workflows_dyn:histogram" else "workflows_dyn:action"
  value : valueIs parse log a r.value
  tags : ∀ k v, (k, v) ∈ r.tags ↔ (k = "_id" ∧ v = a.id) ∨ (k ≠ "_id" ∧ tagIs log a.tags k v)
  once : (a.tags.map (·.1)).Nodup → (r.tags.map (·.1)).Nodup

/-- The record for a path. -/
structure SankeyRecord (log : Log) (a : SankeyCfg) (p : Path) (r : Emitted) : Prop where
  name : r.name = "workflows_dyn:action"
  value : r.value = 1
  tags : ∀ k v, (k, v) ∈ r.tags ↔ (k = "_id" ∧ v = a.id) ∨ (k = "_path_id" ∧ v = p.pathId) ∨
    (k ≠ "_id" ∧ k ≠ "_path_id" ∧ tagIs log a.tags k v)
  once : (a.tags.map (·.1)).Nodup → (r.tags.map (·.1)).Nodup

theorem resolveField_iff {log key v} : resolveField log key = some v ↔ fieldIs log key v := by
  unfold resolveField fieldIs
  by_cases h1 : key = "log_level"
  · subst h1; simp [eq_comm]
  · by_cases h2 : key = "log_type"
    · subst h2; simp [eq_comm]
    · simp [h1, h2]

theorem mem_extractTags {log tags k v} : (k, v) ∈ extractTags log tags ↔ tagIs log tags k v := by
  unfold extractTags tagIs
  rw [List.mem_filterMap]
  constructor
  · rintro ⟨⟨k', t⟩, hm, h⟩
    cases t with
    | fixed x => simp only [Option.map_some, Option.some.injEq, Prod.mk.injEq] at h; obtain ⟨rfl, rfl⟩ := h; exact .inl hm
    | extract f =>
      simp only [Option.map_eq_some_iff, Prod.mk.injEq] at h
      obtain ⟨x, hx, rfl, rfl⟩ := h
      exact .inr ⟨f, hm, resolveField_iff.1 hx⟩
  · rintro (hm | ⟨f, hm, hx⟩)
    · exact ⟨_, hm, rfl⟩
    · refine ⟨_, hm, ?_⟩
      simp only [resolveField_iff.2 hx, Option.map_some]

theorem extractTags_keys (log : Log) : ∀ tags : List (String × TagValue), List.Sublist ((extractTags log tags).map (·.1)) (tags.map (·.1))
  | [] => .slnil
  | t :: l => by
    have ih := extractTags_keys log l
    unfold extractTags at ih ⊢
    rw [List.filterMap_cons]
    split
    · exact .cons _ ih
    · rename_i b hb
      rw [Option.map_eq_some_iff] at hb
      obtain ⟨v, _, rfl⟩ := hb
      exact .cons_cons _ ih

theorem mem_setTag {k v a b l} : (a, b) ∈ setTag k v l ↔ (a = k ∧ b = v) ∨ (a ≠ k ∧ (a, b) ∈ l) := by
  unfold setTag
  simp only [List.mem_cons, Prod.mk.injEq, List.mem_filter, decide_eq_true_eq]
  constructor
  · rintro (h | ⟨h1, h2⟩)
    · exact .inl h
    · exact .inr ⟨h2, h1⟩
  · rintro (h | ⟨h1, h2⟩)
    · exact .inl h
    · exact .inr ⟨h2, h1⟩

theorem setTag_keys {k v l} (h : (l.map (·.1) : List String).Nodup) : ((setTag k v l).map (·.1)).Nodup := by
  unfold setTag
  rw [List.map_cons, List.nodup_cons]
  constructor
  · simp
  · exact ((List.filter_sublist (l := l)).map (·.1)).nodup h

theorem emitMetric_some {parse log a r} (h : emitMetric parse log a = some r) : MetricRecord parse log a r := by
  unfold emitMetric at h
  rw [Option.map_eq_some_iff] at h
  obtain ⟨n, hn, rfl⟩ := h
  refine ⟨rfl, ?_, fun k v => ?_, fun hd => ?_⟩
  · unfold valueIs
    cases hi : a.increment with
    | fixed m => rw [hi] at hn; cases hn; exact .inl rfl
    | extract f =>
      rw [hi] at hn
      simp only [Option.bind_eq_some_iff] at hn
      obtain ⟨s, hs, hp⟩ := hn
      exact .inr ⟨f, s, rfl, resolveField_iff.1 hs, hp⟩
  · rw [mem_setTag, mem_extractTags]
  · exact setTag_keys ((extractTags_keys log a.tags).nodup hd)

theorem emitMetric_none {parse log a} (h : emitMetric parse log a = none) (n : Nat) : ¬ valueIs parse log a n := by
  unfold emitMetric at h
  rw [Option.map_eq_none_iff] at h
  rintro (e | ⟨f, s, e, hs, hp⟩)
  · rw [e] at h; cases h
  · rw [e] at h
    simp only [resolveField_iff.2 hs, Option.bind_some, hp] at h
    cases h

theorem emitSankey_spec (log : Log) (a : SankeyCfg) (p : Path) : SankeyRecord log a p (emitSankey log (a, p)) := by
  refine ⟨rfl, rfl, fun k v => ?_, fun hd => setTag_keys (setTag_keys ((extractTags_keys log a.tags).nodup hd))⟩
  simp only [emitSankey, mem_setTag, mem_extractTags]
  constructor
  · rintro (h | ⟨h1, h | ⟨h2, h3⟩⟩)
    · exact .inr (.inl h)
    · exact .inl h
    · exact .inr (.inr ⟨h2, h1, h3⟩)
  · rintro (h | h | ⟨h1, h2, h3⟩)
    · exact .inr ⟨by rw [h.1]; decide, .inl h⟩
    · exact .inl h
    · exact .inr ⟨h2, .inr ⟨h1, h3⟩⟩

/-- The actions that the runs of the workflows trigger for a log. -/
def Engine.triggered (e : Engine) (log : Log) : List Trig := (processAll e.limit log e.count (e.workflows.zip e.configs)).2.2.1

/-- C67: for every log, each metric action that it triggered, however often, is recorded once if there is a value for it
and not at all otherwise, and each triggered diagram with its path once; nothing else is recorded. -/
theorem C67_records (e : Engine) (log : Log) (dests : List String) (v : LogEnv) (hw : e.workflows ≠ []) :
    ∃ (ms : List MetricCfg) (ss : List (SankeyCfg × Path)) (f : MetricCfg → Option Emitted) (g : SankeyCfg × Path → Emitted),
      ms.Nodup ∧ (∀ a, a ∈ ms ↔ Trig.metric a ∈ e.triggered log) ∧
      ss.Nodup ∧ (∀ a p, (a, p) ∈ ss ↔ Trig.sankey a p ∈ e.triggered log) ∧
      (∀ a, (∀ r, f a = some r → MetricRecord (lookup · v.parse) log a r) ∧
        (f a = none → ∀ n, ¬ valueIs (lookup · v.parse) log a n)) ∧
      (∀ a p, SankeyRecord log a p (g (a, p))) ∧
      (e.handle log dests v).1.emitted = e.emitted ++ (ms.map f).filterMap id ++ ss.map g := by
  refine ⟨metricActions (e.triggered log), sankeyActions (e.triggered log), emitMetric (lookup · v.parse) log, emitSankey log,
    addNew_nodup List.nodup_nil, fun a => ?_, addNew_nodup List.nodup_nil, fun a p => ?_, fun a => ⟨fun r => emitMetric_some, emitMetric_none⟩,
    emitSankey_spec log, ?_⟩
  · unfold metricActions
    rw [mem_addNew, List.mem_filterMap]
    constructor
    · rintro (h | ⟨t, ht, h⟩)
      · cases h
      · cases t <;> simp only [reduceCtorEq, Option.some.injEq] at h
        subst h; exact ht
    · intro h; exact .inr ⟨_, h, rfl⟩
  · unfold sankeyActions
    rw [mem_addNew, List.mem_filterMap]
    constructor
    · rintro (h | ⟨t, ht, h⟩)
      · cases h
      · cases t <;> simp only [reduceCtorEq, Option.some.injEq, Prod.mk.injEq] at h
        obtain ⟨rfl, rfl⟩ := h; exact ht
    · intro h; exact .inr ⟨_, h, rfl⟩
  · unfold Engine.handle
    rw [if_neg (by cases hl : e.workflows <;> simp_all)]
    simp only [Engine.triggered, List.filterMap_map]
    rfl

/-- Without workflows nothing is recorded; a log in a new session is handled by the engine as that session finds it. -/
theorem C67_log (e : Engine) (log : Log) (dests : List String) (v : LogEnv) :
    (e.processLog log dests v).1.emitted = ((e.enter log.session).handle log dests v).1.emitted ∧
    (e.enter log.session).emitted = e.emitted ∧
    (e.workflows = [] → (e.processLog log dests v).1.emitted = e.emitted) := by
  have h : (e.enter log.session).emitted = e.emitted := by
    unfold Engine.enter; split
    · rfl
    · split <;> rfl
  refine ⟨rfl, h, fun hw => ?_⟩
  have hw' : (e.enter log.session).workflows = [] := by
    unfold Engine.enter; split
    · exact hw
    · split
      · simp [hw]
      · exact hw
  unfold Engine.processLog Engine.handle
  rw [if_pos (by rw [hw']; rfl)]
  exact h

/-- Only logs record anything. -/
theorem C67_only_logs (e : Engine) (op : Op) (h : ∀ l d v, op ≠ .log l d v) (hs : ∀ a b c d, op ≠ .start a b c d) :
    (e.apply op).emitted = e.emitted := by
  cases op with
  | start a b c d => exact absurd rfl (hs a b c d)
  | log l d v => exact absurd rfl (h l d v)
  | update ec =>
    have add : ∀ (e : Engine) w c, (e.addWorkflow w c).emitted = e.emitted := by intros; rfl
    have fold : ∀ (l : List Config) (e : Engine), (l.foldl (fun e c => e.addWorkflow { id := c.id } c) e).emitted = e.emitted := by
      intro l; induction l with
      | nil => intro e; rfl
      | cons c l ih => intro e; rw [List.foldl_cons, ih, add]
    show (e.updateWorkflows ec.configs).emitted = _
    unfold Engine.updateWorkflows
    rw [fold]; rfl
  | approved p ok =>
    show (e.approved p ok).emitted = _
    unfold Engine.approved
    simp only
    split
    · split <;> rfl
    · rfl
  | rejected p => rfl
  | flushed id => rfl
  | persist due out =>
    show (e.persist due out).emitted = _
    unfold Engine.persist; split <;> rfl

namespace Ex
/-- two workflows that count the same matcher with the same metric, tagged with the level, and one more with the field "n" -/
def tallying (id : String) : Config :=
  { id := id, exclusive := true,
    states := [⟨"A", [⟨1, .logMatch 7 1,
      [.metric ⟨"m", [("lvl", .extract "log_level"), ("_id", .fixed "x")], .fixed 1, false⟩,
        .metric ⟨"h", [("who", .extract "u")], .extract "n", true⟩], []⟩]⟩, ⟨"B", []⟩] }
end Ex

/-- The same action in two workflows is recorded once; a tag "_id" of the configuration does not hide the identifier. -/
example : (({} : Engine).run [.start 9 true [] ⟨[Ex.tallying "w1", Ex.tallying "w2"], [], []⟩,
    .log { session := "s", time := 0, hits := [7], fields := [("n", "12"), ("u", "z")], level := "3" } [] { parse := [("12", 12)] }]).emitted =
    [⟨"workflows_dyn:action", [("_id", "m"), ("lvl", "3")], 1⟩,
     ⟨"workflows_dyn:histogram", [("_id", "h"), ("who", "z")], 12⟩] := by decide +kernel

end Verif.Wf
