import Verif.Workflow.StopProps
import Verif.Workflow.MeterProps
import Verif.Workflow.StreamProps
import Mathlib.Data.List.Nodup

/-
Which workflows the engine runs: bd-workflows/src/engine.rs:155-421 (`start`, `update`, `add_workflows`, `add_workflow`,
`remove_workflow`), modelled in Verif.Workflow.Engine.
-/
namespace Verif.Wf

/-- The configuration the engine was given last, at its start or by an update. -/
def told : Option EngineCfg → List Op → Option EngineCfg
  | t, [] => t
  | _, .start _ _ _ ec :: ops => told (some ec) ops
  | _, .update ec :: ops => told (some ec) ops
  | t, .log .. :: ops => told t ops
  | t, .approved .. :: ops => told t ops
  | t, .rejected _ :: ops => told t ops
  | t, .flushed _ :: ops => told t ops
  | t, .persist .. :: ops => told t ops

def toldConfigs (t : Option EngineCfg) : List Config := match t with
  | some ec => ec.configs
  | none => []

/-- Every list of workflows given in this history has each identifier once. -/
def Distinct (ops : List Op) : Prop := ∀ op ∈ ops, match op with
  | .start _ _ _ ec | .update ec => (ec.configs.map (·.id)).Nodup
  | _ => True

theorem findConfig_mem {id : String} {cs : List Config} {c : Config} (h : findConfig id cs = some c) : c ∈ cs ∧ c.id = id := by
  induction cs with
  | nil => cases h
  | cons a l ih =>
    simp only [findConfig] at h
    split at h
    · rename_i x hx
      cases h
      obtain ⟨h1, h2⟩ := ih hx
      exact ⟨List.mem_cons_of_mem _ h1, h2⟩
    · split at h
      · rename_i hid
        cases h
        exact ⟨List.mem_cons_self .., hid⟩
      · cases h

theorem findConfig_some {cs : List Config} {c : Config} (h : c ∈ cs) : ∃ c', findConfig c.id cs = some c' := by
  induction cs with
  | nil => cases h
  | cons a l ih =>
    simp only [findConfig]
    rcases List.mem_cons.1 h with rfl | h
    · split
      · exact ⟨_, rfl⟩
      · exact ⟨c, if_pos rfl⟩
    · obtain ⟨c', hc'⟩ := ih h
      rw [hc']
      exact ⟨c', rfl⟩

theorem same_of_id {cs : List Config} (hn : (cs.map (·.id)).Nodup) {c c' : Config} (h : c ∈ cs) (h' : c' ∈ cs) (e : c.id = c'.id) :
    c = c' := by
  exact List.inj_on_of_nodup_map hn h h' e

theorem findConfig_nodup {cs : List Config} (hn : (cs.map (·.id)).Nodup) {c : Config} (id : String) :
    findConfig id cs = some c ↔ c ∈ cs ∧ c.id = id := by
  refine ⟨findConfig_mem, fun ⟨h, e⟩ => ?_⟩
  obtain ⟨c', hc'⟩ := findConfig_some h
  obtain ⟨h1, h2⟩ := findConfig_mem hc'
  rw [← e, hc', same_of_id hn h h1 h2.symm]

theorem zip_maps {ws : List Workflow} {cs : List Config} (h : ws.map (·.id) = cs.map (·.id)) :
    (ws.zip cs).map (·.1) = ws ∧ (ws.zip cs).map (·.2) = cs ∧ ∀ x ∈ ws.zip cs, x.1.id = x.2.id := by
  have hl : ws.length = cs.length := by have := congrArg List.length h; simpa using this
  refine ⟨List.map_fst_zip (by omega), List.map_snd_zip (by omega), ?_⟩
  induction ws generalizing cs with
  | nil => intro x hx; simp at hx
  | cons w ws ih =>
    cases cs with
    | nil => intro x hx; simp at hx
    | cons c cs =>
      simp only [List.map_cons, List.cons.injEq] at h
      intro x hx
      rcases List.mem_cons.1 hx with rfl | hx
      · exact h.1
      · exact ih h.2 (by simpa using hl) x hx

theorem addFresh_lists : ∀ (cs : List Config) (e : Engine),
    (cs.foldl (fun e c => e.addWorkflow { id := c.id } c) e).configs = e.configs ++ cs ∧
    (cs.foldl (fun e c => e.addWorkflow { id := c.id } c) e).workflows = e.workflows ++ cs.map fun c => { id := c.id } := by
  intro cs
  induction cs with
  | nil => intro e; simp
  | cons c cs ih =>
    intro e
    simp only [List.foldl_cons]
    obtain ⟨h1, h2⟩ := ih (e.addWorkflow { id := c.id } c)
    rw [h1, h2]
    constructor
    · simp [Engine.addWorkflow]
    · simp [Engine.addWorkflow, dropRuns_nil]

theorem processAll_ids (limit : Nat) (log : Log) : ∀ (l : List (Workflow × Config)) (count : Nat),
    (processAll limit log count l).1.map (·.id) = l.map (·.1.id) := by
  intro l
  induction l with
  | nil => intro count; rfl
  | cons x l ih =>
    intro count
    obtain ⟨w, c⟩ := x
    simp only [processAll, List.map_cons]
    rw [ih]

theorem addWorkflows_lists : ∀ (cs : List Config) (saved : List Workflow) (e : Engine),
    (e.addWorkflows saved cs).configs = e.configs ++ cs ∧
    (e.addWorkflows saved cs).workflows.map (·.id) = e.workflows.map (·.id) ++ cs.map (·.id) := by
  intro cs
  induction cs with
  | nil => intro saved e; simp [Engine.addWorkflows]
  | cons c cs ih =>
    intro saved e
    simp only [Engine.addWorkflows]
    split
    · rename_i w hw
      have hid : w.id = c.id := by
        clear ih
        induction saved with
        | nil => cases hw
        | cons a l ih =>
          simp only [findWorkflow] at hw
          split at hw
          · rename_i x hx
            cases hw
            exact ih hx
          · split at hw
            · rename_i h; cases hw; exact h
            · cases hw
      obtain ⟨h1, h2⟩ := ih (saved.filter (·.id ≠ c.id)) (e.addWorkflow w c)
      rw [h1, h2]
      simp [Engine.addWorkflow, hid]
    · obtain ⟨h1, h2⟩ := ih saved (e.addWorkflow { id := c.id } c)
      rw [h1, h2]
      simp [Engine.addWorkflow]

theorem start_lists (e : Engine) (limit : Nat) (readable : Bool) (oks : List Bool) (ec : EngineCfg) :
    (e.start limit readable oks ec).configs = ec.configs ∧
    (e.start limit readable oks ec).workflows.map (·.id) = ec.configs.map (·.id) := by
  unfold Engine.start
  dsimp only
  split
  · rename_i s _
    obtain ⟨h1, h2⟩ := addWorkflows_lists ec.configs s.workflows
      { limit := limit, triggers := ec.triggers, conts := ec.conts, disk := if readable then e.disk else none
        pending := stdPending ec.triggers s.pending
        streams := stdStreams ec.triggers ec.conts s.streams
        session := s.session }
    exact ⟨by simpa using h1, by simpa using h2⟩
  · obtain ⟨h1, h2⟩ := addWorkflows_lists ec.configs []
      { limit := limit, triggers := ec.triggers, conts := ec.conts, disk := if readable then e.disk else none }
    exact ⟨by simpa using h1, by simpa using h2⟩

/-- An update, for lists with distinct identifiers: kept pairs, then fresh ones. -/
theorem update_lists (e : Engine) (ec : EngineCfg) :
    (e.update ec).configs = (((e.workflows.zip e.configs).filter fun x => findConfig x.1.id ec.configs == some x.2).map (·.2)) ++
      (ec.configs.filter fun c => !((((e.workflows.zip e.configs).filter fun x => findConfig x.1.id ec.configs == some x.2).map (·.1)).any (·.id = c.id))) ∧
    (e.update ec).workflows = (((e.workflows.zip e.configs).filter fun x => findConfig x.1.id ec.configs == some x.2).map (·.1)) ++
      (ec.configs.filter fun c => !((((e.workflows.zip e.configs).filter fun x => findConfig x.1.id ec.configs == some x.2).map (·.1)).any (·.id = c.id))).map
        (fun c => ({ id := c.id } : Workflow)) := by
  unfold Engine.update Engine.updateWorkflows
  dsimp only
  exact addFresh_lists _ _

/-- What the engine has is what it was told. -/
structure Obeys (e : Engine) (t : Option EngineCfg) : Prop where
  ids : e.workflows.map (·.id) = e.configs.map (·.id)
  set : e.configs.Perm (toldConfigs t)
  nodup : ((toldConfigs t).map (·.id)).Nodup

theorem Obeys.update {e : Engine} {t : Option EngineCfg} (h : Obeys e t) (ec : EngineCfg) (hn : (ec.configs.map (·.id)).Nodup) :
    Obeys (e.update ec) (some ec) := by
  obtain ⟨h1, h2⟩ := update_lists e ec
  obtain ⟨z1, z2, z3⟩ := zip_maps h.ids
  have hne : (e.configs.map (·.id)).Nodup := (h.set.map _).nodup_iff.2 h.nodup
  refine ⟨?_, ?_, hn⟩
  · rw [h1, h2]
    simp only [List.map_append, List.map_map]
    congr 1
    apply List.map_congr_left
    intro x hx
    exact z3 x (List.mem_filter.1 hx).1
  · rw [h1]
    show List.Perm _ ec.configs
    have hnc : ec.configs.Nodup := List.Nodup.of_map _ hn
    have hk : (((e.workflows.zip e.configs).filter fun x => findConfig x.1.id ec.configs == some x.2).map (·.2)).Nodup := by
      have : (((e.workflows.zip e.configs).filter fun x => findConfig x.1.id ec.configs == some x.2).map (·.2)).Sublist e.configs := by
        conv => rhs; rw [← z2]
        exact (List.filter_sublist).map _
      exact (List.Nodup.of_map _ hne).sublist this
    apply (List.perm_ext_iff_of_nodup ?_ hnc).2
    · intro c
      simp only [List.mem_append, List.mem_map, List.mem_filter, beq_iff_eq, Bool.not_eq_true', List.any_eq_false, decide_eq_true_eq]
      constructor
      · rintro (⟨x, ⟨_, hx2⟩, rfl⟩ | ⟨hc, _⟩)
        · exact (findConfig_mem hx2).1
        · exact hc
      · intro hc
        by_cases hex : ∃ x ∈ e.workflows.zip e.configs, findConfig x.1.id ec.configs = some x.2 ∧ x.1.id = c.id
        · obtain ⟨x, hx, hf, hid⟩ := hex
          left
          refine ⟨x, ⟨hx, hf⟩, ?_⟩
          obtain ⟨m1, m2⟩ := findConfig_mem hf
          exact same_of_id hn m1 hc (m2.trans hid)
        · right
          refine ⟨hc, ?_⟩
          rintro w ⟨x, ⟨hx, hf⟩, rfl⟩ hid
          exact hex ⟨x, hx, hf, hid⟩
    · rw [List.nodup_append]
      refine ⟨hk, hnc.sublist List.filter_sublist, ?_⟩
      intro a ha b hb hab
      subst hab
      obtain ⟨x, hx, rfl⟩ := List.mem_map.1 ha
      have hb' := (List.mem_filter.1 hb).2
      simp only [Bool.not_eq_true', List.any_eq_false, decide_eq_true_eq] at hb'
      exact hb' x.1 (List.mem_map_of_mem hx) (z3 x (List.mem_filter.1 hx).1)

theorem enter_lists (e : Engine) (s : String) :
    (e.enter s).configs = e.configs ∧ (e.enter s).workflows.map (·.id) = e.workflows.map (·.id) := by
  unfold Engine.enter
  split
  · exact ⟨rfl, rfl⟩
  · split
    · refine ⟨rfl, ?_⟩
      simp
    · exact ⟨rfl, rfl⟩

theorem processLog_lists {e : Engine} (h : e.workflows.map (·.id) = e.configs.map (·.id)) (l : Log) (d : List String) (v : LogEnv) :
    (e.processLog l d v).1.configs = e.configs ∧ (e.processLog l d v).1.workflows.map (·.id) = e.workflows.map (·.id) := by
  obtain ⟨h1, h2⟩ := enter_lists e l.session
  unfold Engine.processLog Engine.handle
  split
  · exact ⟨h1, h2⟩
  · refine ⟨h1, ?_⟩
    dsimp only
    rw [processAll_ids, ← h2]
    obtain ⟨z1, _, _⟩ := zip_maps (ws := (e.enter l.session).workflows) (cs := (e.enter l.session).configs) (h2.trans (h.trans (by rw [h1])))
    conv => rhs; rw [← z1]
    rw [List.map_map]
    rfl

theorem Obeys.apply {e : Engine} {t : Option EngineCfg} (h : Obeys e t) (op : Op) (hd : Distinct [op]) :
    Obeys (e.apply op) (told t [op]) := by
  have hd := hd op (List.mem_singleton.2 rfl)
  cases op with
  | start limit readable oks ec =>
    obtain ⟨h1, h2⟩ := start_lists e limit readable oks ec
    exact ⟨by rw [show e.apply (.start limit readable oks ec) = e.start limit readable oks ec from rfl, h1, h2],
      by rw [show e.apply (.start limit readable oks ec) = e.start limit readable oks ec from rfl, h1]; exact List.Perm.refl _, hd⟩
  | update ec => exact h.update ec hd
  | log l d v =>
    obtain ⟨h1, h2⟩ := processLog_lists h.ids l d v
    exact ⟨h2.trans (h.ids.trans (by rw [← h1]; rfl)), by
      show ((e.processLog l d v).1.configs).Perm _
      rw [h1]; exact h.set, h.nodup⟩
  | approved p ok =>
    have : (e.approved p ok).configs = e.configs ∧ (e.approved p ok).workflows = e.workflows := by
      unfold Engine.approved
      dsimp only
      split
      · split <;> exact ⟨rfl, rfl⟩
      · exact ⟨rfl, rfl⟩
    refine ⟨?_, ?_, h.nodup⟩
    · show (e.approved p ok).workflows.map _ = (e.approved p ok).configs.map _
      rw [this.1, this.2]; exact h.ids
    · show (e.approved p ok).configs.Perm _
      rw [this.1]; exact h.set
  | rejected p => exact ⟨h.ids, h.set, h.nodup⟩
  | flushed id => exact ⟨h.ids, h.set, h.nodup⟩
  | persist due out =>
    have : (e.persist due out).configs = e.configs ∧ (e.persist due out).workflows = e.workflows := by
      unfold Engine.persist
      split <;> exact ⟨rfl, rfl⟩
    refine ⟨?_, ?_, h.nodup⟩
    · show (e.persist due out).workflows.map _ = (e.persist due out).configs.map _
      rw [this.1, this.2]; exact h.ids
    · show (e.persist due out).configs.Perm _
      rw [this.1]; exact h.set

theorem told_cons (t : Option EngineCfg) (op : Op) (ops : List Op) : told t (op :: ops) = told (told t [op]) ops := by
  cases op <;> rfl

theorem Obeys.run : ∀ (ops : List Op) {e : Engine} {t : Option EngineCfg}, Obeys e t → Distinct ops → Obeys (e.run ops) (told t ops) := by
  intro ops
  induction ops with
  | nil => intro e t h _; exact h
  | cons op ops ih =>
    intro e t h hd
    rw [told_cons]
    exact ih (h.apply op (fun x hx => hd x (by rw [List.mem_singleton.1 hx]; exact List.mem_cons_self ..)))
      (fun x hx => hd x (List.mem_cons_of_mem _ hx))

theorem Obeys.init : Obeys ({} : Engine) none := ⟨rfl, List.Perm.refl _, List.nodup_nil⟩

/-- C114.  At every moment the engine runs the workflows of the configuration it was given last, each once and no others, and the
state beside each configuration is the one of its identifier.

The full statement is without the condition on identifiers.  Missing: with an identifier twice a configuration given again
stops a workflow, and a workflow can go on being run twice (`C114_twice_violated`). -/
theorem C114_set_partial (ops : List Op) (hd : Distinct ops) :
    let e := ({} : Engine).run ops
    e.configs.Perm (toldConfigs (told none ops)) ∧ e.workflows.map (·.id) = e.configs.map (·.id) := by
  have h := Obeys.run ops Obeys.init hd
  exact ⟨h.set, h.ids⟩

/-- The workflows after an update. -/
theorem update_mem {e : Engine} (hi : e.workflows.map (·.id) = e.configs.map (·.id)) (ec : EngineCfg)
    (hn : (ec.configs.map (·.id)).Nodup) (w : Workflow) (c : Config) :
    (w, c) ∈ (e.update ec).workflows.zip (e.update ec).configs ↔
      c ∈ ec.configs ∧ ((w, c) ∈ e.workflows.zip e.configs ∨ c ∉ e.configs ∧ w = { id := c.id, runs := [] }) := by
  obtain ⟨h1, h2⟩ := update_lists e ec
  obtain ⟨z1, z2, z3⟩ := zip_maps hi
  rw [h1, h2]
  generalize hK : ((e.workflows.zip e.configs).filter fun x => findConfig x.1.id ec.configs == some x.2) = K
  have hKm : ∀ x, x ∈ K ↔ x ∈ e.workflows.zip e.configs ∧ x.2 ∈ ec.configs := by
    intro x
    rw [← hK]
    simp only [List.mem_filter, beq_iff_eq]
    constructor
    · rintro ⟨m1, m2⟩; exact ⟨m1, (findConfig_mem m2).1⟩
    · rintro ⟨m1, m2⟩; exact ⟨m1, (findConfig_nodup hn _).2 ⟨m2, (z3 x m1).symm⟩⟩
  rw [List.zip_append (by simp), List.mem_append]
  rw [show (K.map (·.1)).zip (K.map (·.2)) = K from by rw [List.zip_map']; simp]
  rw [show ∀ l : List Config, (l.map fun c => ({ id := c.id } : Workflow)).zip l = l.map fun c => (({ id := c.id } : Workflow), c) from by
    intro l
    induction l with
    | nil => rfl
    | cons a l ih => simp [ih]]
  have hin : ∀ c, c ∈ e.configs → ∃ w, (w, c) ∈ e.workflows.zip e.configs := by
    intro c hc
    rw [← z2] at hc
    obtain ⟨x, hx, rfl⟩ := List.mem_map.1 hc
    exact ⟨x.1, hx⟩
  constructor
  · rintro (hk | hf)
    · obtain ⟨m1, m2⟩ := (hKm _).1 hk
      exact ⟨m2, .inl m1⟩
    · obtain ⟨c', hc', heq⟩ := List.mem_map.1 hf
      cases heq
      obtain ⟨m1, m2⟩ := List.mem_filter.1 hc'
      refine ⟨m1, .inr ⟨fun hc => ?_, rfl⟩⟩
      obtain ⟨w, hw⟩ := hin c hc
      simp only [Bool.not_eq_true', List.any_eq_false, decide_eq_true_eq] at m2
      exact m2 w (List.mem_map_of_mem ((hKm (w, c)).2 ⟨hw, m1⟩)) (z3 _ hw)
  · rintro ⟨m, hk | ⟨hno, rfl⟩⟩
    · exact .inl ((hKm _).2 ⟨hk, m⟩)
    · right
      refine List.mem_map.2 ⟨c, List.mem_filter.2 ⟨m, ?_⟩, rfl⟩
      simp only [Bool.not_eq_true', List.any_eq_false, decide_eq_true_eq]
      intro w hw hid
      obtain ⟨x, hx, rfl⟩ := List.mem_map.1 hw
      obtain ⟨m1, m2⟩ := (hKm x).1 hx
      have : x.2 = c := same_of_id hn m2 m ((z3 x m1).symm.trans hid)
      exact hno (this ▸ (by rw [← z2]; exact List.mem_map_of_mem m1))

/-- C114, what an update does with the state: a workflow that is in the new list as it was keeps its state, one that is not (a new
one or a changed one) starts without any.  There is nothing else.

The full statement is without the condition on identifiers and also about new processes.  Missing: identifiers used twice
(`C114_twice_violated`), and a workflow that was changed while no process was running goes on with its old state (`C114_restart_violated`). -/
theorem C114_update_partial (ops : List Op) (hd : Distinct ops) (ec : EngineCfg) (hn : (ec.configs.map (·.id)).Nodup) (w : Workflow) (c : Config) :
    let e := ({} : Engine).run ops
    let e' := ({} : Engine).run (ops ++ [.update ec])
    (w, c) ∈ e'.workflows.zip e'.configs ↔
      c ∈ ec.configs ∧ ((w, c) ∈ e.workflows.zip e.configs ∨ c ∉ e.configs ∧ w = { id := c.id, runs := [] }) := by
  intro e e'
  have h := Obeys.run ops Obeys.init hd
  have : e' = e.update ec := by
    show List.foldl _ _ _ = _
    rw [List.foldl_append]
    rfl
  rw [this]
  exact update_mem h.ids ec hn w c

/-- C114, at a start the workflows are those of the configuration, in its order, whatever was stored. -/
theorem C114_start (e : Engine) (limit : Nat) (readable : Bool) (oks : List Bool) (ec : EngineCfg) :
    (e.apply (.start limit readable oks ec)).configs = ec.configs ∧
    (e.apply (.start limit readable oks ec)).workflows.map (·.id) = ec.configs.map (·.id) :=
  start_lists e limit readable oks ec

theorem addWorkflows_state : ∀ (cs : List Config) (saved : List Workflow) (e : Engine) (w : Workflow) (c : Config),
    (w, c) ∈ (e.addWorkflows saved cs).workflows.zip (e.addWorkflows saved cs).configs → e.workflows.length = e.configs.length →
    (w, c) ∈ e.workflows.zip e.configs ∨ (c ∈ cs ∧ (w.runs = [] ∨ ∃ v ∈ saved, v.id = c.id ∧ w.runs <+: v.runs)) := by
  intro cs
  induction cs with
  | nil => intro saved e w c h _; exact .inl h
  | cons a cs ih =>
    intro saved e w c h hl
    have add : ∀ (v : Workflow), (w, c) ∈ (e.addWorkflow v a).workflows.zip (e.addWorkflow v a).configs →
        (w, c) ∈ e.workflows.zip e.configs ∨ c = a ∧ w.runs <+: v.runs := by
      intro v hm
      unfold Engine.addWorkflow at hm
      dsimp only at hm
      rw [List.zip_append hl, List.mem_append] at hm
      rcases hm with hm | hm
      · exact .inl hm
      · right
        have := List.mem_singleton.1 hm
        cases this
        refine ⟨rfl, ?_⟩
        dsimp only
        split
        · have hp : ∀ (n : Nat) (l : List Run), dropRuns e.limit e.count n l <+: l := by
            intro n
            induction n with
            | zero => intro l; exact List.prefix_refl _
            | succ n ih =>
              intro l
              cases l with
              | nil => exact List.prefix_refl _
              | cons b l =>
                simp only [dropRuns]
                split
                · exact List.dropLast_prefix _
                · exact (ih _).trans (List.dropLast_prefix _)
          exact hp _ _
        · exact List.prefix_refl _
    have len : ∀ v : Workflow, (e.addWorkflow v a).workflows.length = (e.addWorkflow v a).configs.length := by
      intro v
      simp [Engine.addWorkflow, hl]
    simp only [Engine.addWorkflows] at h
    split at h
    · rename_i v hv
      have hv' : v ∈ saved ∧ v.id = a.id := by
        clear ih h add len
        induction saved with
        | nil => cases hv
        | cons b l ih =>
          simp only [findWorkflow] at hv
          split at hv
          · rename_i x hx
            cases hv
            exact ⟨List.mem_cons_of_mem _ (ih hx).1, (ih hx).2⟩
          · split at hv
            · rename_i h; cases hv; exact ⟨List.mem_cons_self .., h⟩
            · cases hv
      rcases ih _ _ _ _ h (len v) with h | ⟨h1, h2⟩
      · rcases add v h with h | ⟨rfl, hp⟩
        · exact .inl h
        · exact .inr ⟨List.mem_cons_self .., .inr ⟨v, hv'.1, hv'.2, hp⟩⟩
      · refine .inr ⟨List.mem_cons_of_mem _ h1, h2.imp id ?_⟩
        rintro ⟨u, hu, hu'⟩
        exact ⟨u, (List.mem_filter.1 hu).1, hu'⟩
    · rcases ih _ _ _ _ h (len _) with h | ⟨h1, h2⟩
      · rcases add _ h with h | ⟨rfl, hp⟩
        · exact .inl h
        · exact .inr ⟨List.mem_cons_self .., .inl (List.prefix_nil.1 hp)⟩
      · exact .inr ⟨List.mem_cons_of_mem _ h1, h2⟩

/-- C114, at a start the state of a workflow is the one stored for its identifier, as far as the limit allows, or none. -/
theorem C114_resume (e : Engine) (limit : Nat) (readable : Bool) (oks : List Bool) (ec : EngineCfg) (w : Workflow) (c : Config)
    (h : (w, c) ∈ (e.apply (.start limit readable oks ec)).workflows.zip (e.apply (.start limit readable oks ec)).configs) :
    w.runs = [] ∨ (readable = true ∧ ∃ d, e.disk = some d ∧ ∃ v ∈ d.workflows, v.id = c.id ∧ w.runs <+: v.runs) := by
  change (w, c) ∈ (e.start limit readable oks ec).workflows.zip (e.start limit readable oks ec).configs at h
  unfold Engine.start at h
  dsimp only at h
  split at h
  · rename_i s hs
    have hs' : readable = true ∧ e.disk = some s := by
      cases readable
      · cases hs
      · exact ⟨rfl, hs⟩
    rcases addWorkflows_state _ _ _ _ _ h rfl with h | ⟨_, h | h⟩
    · cases h
    · exact .inl h
    · exact .inr ⟨hs'.1, s, hs'.2, h⟩
  · rcases addWorkflows_state _ _ _ _ _ h rfl with h | ⟨_, h | ⟨v, hv, _⟩⟩
    · cases h
    · exact .inl h
    · cases hv

/-- C114 fails with an identifier used twice.  Given the same configuration again the engine drops the first workflow and does not
start it again.  And a workflow that is in the list twice goes on being run twice when it is in the list once. -/
theorem C114_twice_violated :
    let other : Config := { Ex.growing with exclusive := true }
    ((({} : Engine).run [Ex.start 9 [other, Ex.growing], .update ⟨[other, Ex.growing], [], []⟩]).configs = [Ex.growing]) ∧
    ((({} : Engine).run [Ex.start 9 [Ex.growing, Ex.growing], .update ⟨[Ex.growing], [], []⟩]).configs = [Ex.growing, Ex.growing]) := by
  decide +kernel

/-- C114 fails for a workflow that was changed between two processes: it goes on from the state of the old one, while an update
of a running process would have begun anew. -/
theorem C114_restart_violated :
    let changed : Config := { Ex.growing with duration := some 5 }
    ((({} : Engine).run [Ex.start 9 [Ex.growing], Ex.log [7], Op.persist true .ok, Ex.start 9 [changed]]).workflows.map
      fun w => w.runs.map fun r => r.traversals.map (·.state)) = [[[1]]] ∧
    ((({} : Engine).run [Ex.start 9 [Ex.growing], Ex.log [7], .update ⟨[changed], [], []⟩]).workflows.map fun w => w.runs) = [[]] := by
  decide +kernel

/-- Histories for the theorems: of three workflows one is kept with its state, one is changed, one goes, one comes. -/
example :
    let old : List Config := [Ex.growing, Ex.forking 9, { Ex.growing with id := "y" }]
    let new : List Config := [{ Ex.growing with id := "z" }, Ex.forking 8, Ex.growing]
    let e := ({} : Engine).run [Ex.start 99 old, Ex.log [7], Ex.log [1, 7], .update ⟨new, [], []⟩]
    (old.map (·.id)).Nodup ∧ (new.map (·.id)).Nodup ∧ e.configs = [Ex.growing, { Ex.growing with id := "z" }, Ex.forking 8] ∧
    (e.workflows.map fun w => (w.id, w.runs.length)) = [("g", 2), ("z", 0), ("w", 0)] := by decide +kernel

end Verif.Wf
