import Verif.Workflow.RestoreLemmas
import Verif.Workflow.PendingProps

/-!
C37: a restart loses no progress.

`C37_restore_partial`: an engine whose state was written, and one restarted from what was written, react in the same way
to everything that follows.  The hypotheses name what is missing; each is needed, see the violations at the end.
-/
namespace Verif.Wf

/-! ### Two engines with the same progress -/

/-- The same runs in progress; one may have a waiting run the other lacks. -/
def TwinW : List Workflow → List Workflow → List Config → Prop
  | [], [], [] => True
  | w :: ws, v :: vs, c :: cs =>
    (w.id = v.id ∧ c.noReturn ∧ Shape c w.runs ∧ Shape c v.runs ∧ strip w.runs = strip v.runs) ∧ TwinW ws vs cs
  | _, _, _ => False

theorem TwinW.isEmpty : ∀ {ws vs : List Workflow} {cs : List Config}, TwinW ws vs cs → ws.isEmpty = vs.isEmpty
  | [], [], [], _ => rfl
  | _ :: _, _ :: _, _ :: _, _ => rfl

theorem TwinW.clear : ∀ {ws vs : List Workflow} {cs : List Config}, TwinW ws vs cs →
    TwinW (ws.map fun w => { w with runs := [] }) (vs.map fun w => { w with runs := [] }) cs
  | [], [], [], _ => trivial
  | _ :: _, _ :: _, c :: _, ⟨⟨h1, h2, _, _, _⟩, h⟩ => ⟨⟨h1, h2, Shape.empty c, Shape.empty c, rfl⟩, h.clear⟩

theorem TwinW.append : ∀ {ws vs : List Workflow} {cs : List Config} (c : Config) (i : String), c.noReturn →
    TwinW ws vs cs → TwinW (ws ++ [{ id := i, runs := [] }]) (vs ++ [{ id := i, runs := [] }]) (cs ++ [c])
  | [], [], [], c, _, hc, _ => ⟨⟨rfl, hc, Shape.empty c, Shape.empty c, rfl⟩, trivial⟩
  | _ :: _, _ :: _, _ :: _, c, i, hc, ⟨h1, h⟩ => ⟨h1, h.append c i hc⟩

/-- The workflows that stay after an update, with their configurations. -/
def kept (cs' : List Config) (x : Workflow × Config) : Bool := findConfig x.1.id cs' == some x.2

theorem TwinW.filter (cs' : List Config) : ∀ {ws vs : List Workflow} {cs : List Config}, TwinW ws vs cs →
    ((ws.zip cs).filter (kept cs')).map (·.2) = ((vs.zip cs).filter (kept cs')).map (·.2) ∧
      TwinW (((ws.zip cs).filter (kept cs')).map (·.1)) (((vs.zip cs).filter (kept cs')).map (·.1))
        (((ws.zip cs).filter (kept cs')).map (·.2))
  | [], [], [], _ => ⟨rfl, trivial⟩
  | w :: ws, v :: vs, c :: cs, ⟨h1, h⟩ => by
    obtain ⟨ih1, ih2⟩ := TwinW.filter cs' h
    have hk : kept cs' (w, c) = kept cs' (v, c) := by unfold kept; rw [show (w, c).1.id = (v, c).1.id from h1.1]
    simp only [List.zip_cons_cons, List.filter_cons]
    rw [← hk]
    split
    · exact ⟨by simp only [List.map_cons]; rw [ih1], h1, ih2⟩
    · exact ⟨ih1, ih2⟩

theorem TwinW.any (i : String) : ∀ {ws vs : List Workflow} {cs : List Config}, TwinW ws vs cs →
    ws.any (·.id = i) = vs.any (·.id = i)
  | [], [], [], _ => rfl
  | _ :: _, _ :: _, _ :: _, ⟨⟨h1, _⟩, h⟩ => by simp only [List.any_cons]; rw [h1, h.any i]

/-- How often the limit for traversals is hit while a log is processed. -/
def hits (limit : Nat) (log : Log) : Nat → List (Workflow × Config) → Nat
  | _, [] => 0
  | count, (w, c) :: l =>
    (processRuns c limit log count w.runs).stats.limitHit + hits limit log (processRuns c limit log count w.runs).count l

theorem processAll_twin {log : Log} {limit limit' : Nat} : ∀ {ws vs : List Workflow} {cs : List Config} (k k' : Nat),
    TwinW ws vs cs → hits limit log k (ws.zip cs) = 0 → hits limit' log k' (vs.zip cs) = 0 →
      (processAll limit log k (ws.zip cs)).1 = (processAll limit' log k' (vs.zip cs)).1 ∧
      (processAll limit log k (ws.zip cs)).2.2.1 = (processAll limit' log k' (vs.zip cs)).2.2.1 ∧
      TwinW (processAll limit log k (ws.zip cs)).1 (processAll limit' log k' (vs.zip cs)).1 cs
  | [], [], [], _, _, _, _, _ => ⟨rfl, rfl, trivial⟩
  | w :: ws, v :: vs, c :: cs, k, k', ⟨⟨h1, h2, h3, h4, h5⟩, h⟩, ha, hb => by
    simp only [List.zip_cons_cons] at ha hb ⊢
    unfold hits at ha hb
    obtain ⟨hd, hx⟩ := process_like (log := log) (limit := limit) (limit' := limit') (count := k) (count' := k') h3 h4 h5
      (by omega) (by omega)
    obtain ⟨i1, i2, i3⟩ := processAll_twin (log := log) (limit := limit) (limit' := limit') _ _ h
      (by omega : hits limit log (processRuns c limit log k w.runs).count (ws.zip cs) = 0)
      (by omega : hits limit' log (processRuns c limit' log k' v.runs).count (vs.zip cs) = 0)
    have hs := h3.process (limit := limit) (count := k) (log := log) h2
    have hs' := h4.process (limit := limit') (count := k') (log := log) h2
    unfold processAll
    dsimp only
    refine ⟨?_, ?_, ⟨h1, h2, hs, hs', by dsimp only; rw [hd]⟩, i3⟩
    · rw [i1, hd, h1]
    · rw [i2, hx]

structure Twin (o n : Engine) (paths : List Path) (emitted : List Emitted) (requests : List (String × List String))
    (osent nsent : List Pending) : Prop where
  configs : n.configs = o.configs
  workflows : TwinW o.workflows n.workflows o.configs
  session : n.session = o.session
  pending : n.pending = o.pending
  streams : n.streams = o.streams
  flushes : ∀ i, (lookup i n.flushes).getD true = (lookup i o.flushes).getD true
  triggers : n.triggers = o.triggers
  conts : n.conts = o.conts
  paths : o.paths = paths ++ n.paths
  emitted : o.emitted = emitted ++ n.emitted
  requests : o.requests = requests ++ n.requests
  sent : ∃ l, o.sent = osent ++ l ∧ n.sent = nsent ++ l

section
variable {o n : Engine} {p : List Path} {x : List Emitted} {r : List (String × List String)} {so sn : List Pending}

theorem Twin.addWorkflow (h : Twin o n p x r so sn) (c : Config) (hc : c.noReturn) :
    Twin (o.addWorkflow { id := c.id } c) (n.addWorkflow { id := c.id } c) p x r so sn := by
  have key : ∀ e : Engine, ∃ k, e.addWorkflow { id := c.id } c =
      { e with count := k, configs := e.configs ++ [c], workflows := e.workflows ++ [{ id := c.id, runs := [] }] } := by
    intro e
    refine ⟨e.count + 0, ?_⟩
    unfold Engine.addWorkflow
    simp [dropRuns, travCount]
  obtain ⟨k, hk⟩ := key o
  obtain ⟨k', hk'⟩ := key n
  rw [hk, hk']
  exact ⟨by dsimp only; rw [h.configs], h.workflows.append c c.id hc, h.session, h.pending, h.streams, h.flushes,
    h.triggers, h.conts, h.paths, h.emitted, h.requests, h.sent⟩

theorem Twin.fold : ∀ (l : List Config) {o n : Engine}, (∀ c ∈ l, c.noReturn) → Twin o n p x r so sn →
    Twin (l.foldl (fun e c => e.addWorkflow { id := c.id } c) o) (l.foldl (fun e c => e.addWorkflow { id := c.id } c) n)
      p x r so sn
  | [], _, _, _, h => h
  | c :: l, _, _, hc, h =>
    Twin.fold l (fun y hy => hc y (List.mem_cons_of_mem _ hy)) (h.addWorkflow c (hc c List.mem_cons_self))

theorem Twin.update (h : Twin o n p x r so sn) (ec : EngineCfg) (hc : ∀ c ∈ ec.configs, c.noReturn) :
    Twin (o.update ec) (n.update ec) p x r so sn := by
  obtain ⟨f1, f2⟩ := h.workflows.filter ec.configs
  have h1 : Twin (o.removeWorkflows (kept ec.configs)) (n.removeWorkflows (kept ec.configs)) p x r so sn := by
    unfold Engine.removeWorkflows
    refine ⟨?_, ?_, h.session, h.pending, h.streams, h.flushes, h.triggers, h.conts, h.paths, h.emitted, h.requests,
      h.sent⟩
    · dsimp only; rw [h.configs, f1]
    · dsimp only; rw [h.configs]; exact f2
  have h2 : Twin (o.updateWorkflows ec.configs) (n.updateWorkflows ec.configs) p x r so sn := by
    unfold Engine.updateWorkflows
    dsimp only
    have : (ec.configs.filter fun c => !((n.removeWorkflows (kept ec.configs)).workflows.any (·.id = c.id))) =
        ec.configs.filter fun c => !((o.removeWorkflows (kept ec.configs)).workflows.any (·.id = c.id)) := by
      congr 1
      funext c
      rw [h1.workflows.any c.id]
    have h3 := Twin.fold (ec.configs.filter fun c => !((o.removeWorkflows (kept ec.configs)).workflows.any (·.id = c.id)))
      (fun c hx => hc c (List.mem_filter.1 hx).1) h1
    unfold kept at this h3
    rw [this]
    exact h3
  unfold Engine.update
  exact ⟨h2.configs, h2.workflows, h2.session, by dsimp only; rw [h2.pending], by dsimp only; rw [h2.streams], h2.flushes,
    rfl, rfl, h2.paths, h2.emitted, h2.requests, h2.sent⟩

theorem Twin.enter (h : Twin o n p x r so sn) (s : String) : Twin (o.enter s) (n.enter s) p x r so sn := by
  unfold Engine.enter
  rw [h.session]
  split
  · exact ⟨h.configs, h.workflows, rfl, h.pending, h.streams, h.flushes, h.triggers, h.conts, h.paths, h.emitted,
      h.requests, h.sent⟩
  · split
    · exact ⟨h.configs, h.workflows.clear, rfl, h.pending, h.streams, h.flushes, h.triggers, h.conts, h.paths, h.emitted,
        h.requests, h.sent⟩
    · exact h

/-- How often processing a log hits the limit. -/
def Engine.hits (e : Engine) (log : Log) : Nat := Wf.hits e.limit log e.count (e.workflows.zip e.configs)

theorem Twin.handle (h : Twin o n p x r so sn) (log : Log) (dests : List String) (v : LogEnv) (ho : o.hits log = 0)
    (hn : n.hits log = 0) :
    Twin (o.handle log dests v).1 (n.handle log dests v).1 p x r so sn ∧
      (n.handle log dests v).2 = (o.handle log dests v).2 := by
  unfold Engine.hits at ho hn
  rw [h.configs] at hn
  obtain ⟨p1, p2, p3⟩ := processAll_twin _ _ h.workflows ho hn
  have hs : (n.streams.map fun s => (s, (lookup s.id n.flushes).getD true)) =
      o.streams.map fun s => (s, (lookup s.id o.flushes).getD true) := by
    rw [h.streams]
    congr 1
    funext s
    rw [h.flushes s.id]
  unfold Engine.handle
  rw [← h.workflows.isEmpty]
  split
  · exact ⟨h, rfl⟩
  · rw [h.configs, h.session, h.triggers, h.conts, h.pending, hs]
    dsimp only
    rw [← p2]
    refine ⟨⟨rfl, p3, rfl, rfl, rfl, h.flushes, rfl, rfl, ?_, ?_, h.requests, ?_⟩, rfl⟩
    · dsimp only; rw [h.paths, List.append_assoc]
    · dsimp only; rw [h.emitted]; simp only [List.append_assoc]
    · obtain ⟨l, h1, h2⟩ := h.sent
      dsimp only
      rw [h1, h2]
      exact ⟨_, List.append_assoc _ _ _, List.append_assoc _ _ _⟩

theorem Twin.approved (h : Twin o n p x r so sn) (q : Pending) (ok : Bool) :
    Twin (o.approved q ok) (n.approved q ok) p x r so sn := by
  unfold Engine.approved
  dsimp only
  rw [h.flushes q.id]
  split
  · split
    · refine ⟨h.configs, h.workflows, h.session, by dsimp only; rw [h.pending], by dsimp only; rw [h.streams, h.conts], ?_,
        h.triggers, h.conts, h.paths, h.emitted, ?_, h.sent⟩
      · intro i
        dsimp only
        rw [lookup_setFlush, lookup_setFlush]
        split
        · rfl
        · exact h.flushes i
      · dsimp only; rw [h.requests, List.append_assoc]
    · refine ⟨h.configs, h.workflows, h.session, by dsimp only; rw [h.pending], by dsimp only; rw [h.streams, h.conts], ?_,
        h.triggers, h.conts, h.paths, h.emitted, h.requests, h.sent⟩
      intro i
      dsimp only
      rw [lookup_filter_ne, lookup_filter_ne]
      split
      · rfl
      · exact h.flushes i
  · exact ⟨h.configs, h.workflows, h.session, by dsimp only; rw [h.pending], by dsimp only; rw [h.streams, h.conts],
      h.flushes, h.triggers, h.conts, h.paths, h.emitted, h.requests, h.sent⟩

/-- A step that is not a restart, brings only workflows that never return to their first state, and does not hit the
limit. -/
def smoothOp (e : Engine) : Op → Prop
  | .start .. => False
  | .update ec => ∀ c ∈ ec.configs, c.noReturn
  | .log l _ _ => (e.enter l.session).hits l = 0
  | _ => True

def SmoothRun : Engine → List Op → Prop
  | _, [] => True
  | e, op :: ops => smoothOp e op ∧ SmoothRun (e.apply op) ops

theorem Twin.apply (h : Twin o n p x r so sn) (op : Op) (ho : smoothOp o op) (hn : smoothOp n op) :
    Twin (o.apply op) (n.apply op) p x r so sn := by
  cases op with
  | start limit readable oks ec => cases ho
  | update ec => exact h.update ec ho
  | log l dests v => exact ((h.enter l.session).handle l dests v ho hn).1
  | approved q ok => exact h.approved q ok
  | rejected q =>
    exact ⟨h.configs, h.workflows, h.session, by show n.pending.filter _ = o.pending.filter _; rw [h.pending], h.streams,
      h.flushes, h.triggers, h.conts, h.paths, h.emitted, h.requests, h.sent⟩
  | flushed id =>
    refine ⟨h.configs, h.workflows, h.session, h.pending, h.streams, ?_, h.triggers, h.conts, h.paths, h.emitted,
      h.requests, h.sent⟩
    intro i
    show (lookup i (n.flushes.map _)).getD true = (lookup i (o.flushes.map _)).getD true
    rw [lookup_flushed, lookup_flushed, h.flushes i]
  | persist due out =>
    have key : ∀ e : Engine, ∃ d k, e.persist due out = { e with dirty := d, disk := k } := by
      intro e
      unfold Engine.persist
      split
      · exact ⟨_, _, rfl⟩
      · exact ⟨_, _, rfl⟩
    obtain ⟨d, k, hk⟩ := key o
    obtain ⟨d', k', hk'⟩ := key n
    show Twin (o.persist due out) (n.persist due out) p x r so sn
    rw [hk, hk']
    exact ⟨h.configs, h.workflows, h.session, h.pending, h.streams, h.flushes, h.triggers, h.conts, h.paths, h.emitted,
      h.requests, h.sent⟩

theorem Twin.run : ∀ (ops : List Op) {o n : Engine}, Twin o n p x r so sn → SmoothRun o ops → SmoothRun n ops →
    Twin (o.run ops) (n.run ops) p x r so sn
  | [], _, _, h, _, _ => h
  | op :: ops, _, _, h, ho, hn => by
    unfold Engine.run
    simp only [List.foldl_cons]
    exact Twin.run ops (h.apply op ho.1 hn.1) ho.2 hn.2

end

/-! ### A restart gives a twin -/

theorem findWorkflow_filter (k i : String) (h : i ≠ k) : ∀ (l : List Workflow),
    findWorkflow i (l.filter (·.id ≠ k)) = findWorkflow i l
  | [] => rfl
  | w :: l => by
    have ih := findWorkflow_filter k i h l
    simp only [List.filter_cons]
    by_cases hw : w.id = k
    · simp only [hw, ne_eq, not_true_eq_false, decide_false, Bool.false_eq_true, if_false]
      rw [show findWorkflow i (w :: l) = (match findWorkflow i l with
        | some x => some x
        | none => if w.id = i then some w else none) from rfl, ih]
      cases findWorkflow i l with
      | some x => rfl
      | none => rw [if_neg (by rw [hw]; exact fun h' => h h'.symm)]
    · simp only [ne_eq, hw, not_false_eq_true, decide_true, if_true]
      unfold findWorkflow
      rw [ih]

theorem findWorkflow_none {i : String} : ∀ {l : List Workflow}, (∀ w ∈ l, w.id ≠ i) → findWorkflow i l = none
  | [], _ => rfl
  | w :: l, h => by
    unfold findWorkflow
    rw [findWorkflow_none fun x hx => h x (List.mem_cons_of_mem _ hx)]
    dsimp only
    rw [if_neg (h w List.mem_cons_self)]

/-- What is stored of the workflows. -/
def stored (ws : List Workflow) : List Workflow := (ws.map (·.optimized)).filter (!·.runs.isEmpty)

theorem stored_id {ws : List Workflow} {x : Workflow} (h : x ∈ stored ws) : ∃ w ∈ ws, w.id = x.id := by
  obtain ⟨h1, _⟩ := List.mem_filter.1 h
  obtain ⟨w, hw, rfl⟩ := List.mem_map.1 h1
  exact ⟨w, hw, rfl⟩

theorem findWorkflow_stored : ∀ {ws : List Workflow}, (ws.map (·.id)).Nodup → ∀ w ∈ ws,
    findWorkflow w.id (stored ws) = if (strip w.runs).isEmpty then none else some w.optimized
  | [], _, _, hw => by cases hw
  | v :: ws, hn, w, hw => by
    obtain ⟨hv, hn⟩ := List.nodup_cons.1 (by simpa using hn : (v.id :: ws.map (·.id)).Nodup)
    have hv' : ∀ x ∈ stored ws, x.id ≠ v.id := by
      intro x hx he
      obtain ⟨y, hy, hyx⟩ := stored_id hx
      exact hv (List.mem_map.2 ⟨y, hy, hyx.trans he⟩)
    have hst : stored (v :: ws) = if (strip v.runs).isEmpty then stored ws else v.optimized :: stored ws := by
      unfold stored
      simp only [List.map_cons, List.filter_cons]
      show (if (!(strip v.runs).isEmpty) = true then _ else _) = _
      cases (strip v.runs).isEmpty <;> rfl
    rw [hst]
    rcases List.mem_cons.1 hw with rfl | hw
    · split
      · exact findWorkflow_none hv'
      · rw [show findWorkflow w.id (w.optimized :: stored ws) = (match findWorkflow w.id (stored ws) with
          | some x => some x
          | none => if w.optimized.id = w.id then some w.optimized else none) from rfl, findWorkflow_none hv']
        exact if_pos (c := w.optimized.id = w.id) rfl
    · have hne : v.id ≠ w.id := fun he => hv (List.mem_map.2 ⟨w, hw, he.symm⟩)
      have ih := findWorkflow_stored hn w hw
      split
      · exact ih
      · rw [show findWorkflow w.id (v.optimized :: stored ws) = (match findWorkflow w.id (stored ws) with
          | some x => some x
          | none => if v.optimized.id = w.id then some v.optimized else none) from rfl, ih]
        cases (strip w.runs).isEmpty with
        | true =>
          rw [if_pos rfl]
          exact if_neg hne
        | false => rfl

theorem travCount_strip (l : List Run) : travCount (strip l) ≤ travCount l := by
  induction l with
  | nil => exact Nat.le_refl _
  | cons r l ih =>
    unfold strip at ih ⊢
    rw [List.filter_cons, travCount_cons]
    split
    · rw [travCount_cons]; omega
    · omega

/-- The workflows a new process starts with: the stored runs, if there is room. -/
theorem addWorkflows_stored : ∀ (ws : List Workflow) (cs : List Config) (saved : List Workflow) (e : Engine),
    Paired (fun w c => w.id = c.id) ws cs → (cs.map (·.id)).Nodup →
    (∀ w ∈ ws, findWorkflow w.id saved = if (strip w.runs).isEmpty then none else some w.optimized) →
    e.count + (ws.map fun w => travCount w.runs).sum ≤ e.limit →
    ∃ k, e.addWorkflows saved cs = { e with
      count := k, configs := e.configs ++ cs, workflows := e.workflows ++ ws.map (·.optimized) }
  | [], [], _, e, _, _, _, _ => ⟨e.count, by simp [Engine.addWorkflows]⟩
  | w :: ws, c :: cs, saved, e, ⟨hid, hp⟩, hn, hs, hl => by
    obtain ⟨hc, hn⟩ := List.nodup_cons.1 (by simpa using hn : (c.id :: cs.map (·.id)).Nodup)
    have hcount := travCount_strip w.runs
    simp only [List.map_cons, List.sum_cons] at hl
    have hadd : ∀ v : Workflow, v = w.optimized →
        e.addWorkflow v c = { e with
          count := e.count + travCount (strip w.runs), configs := e.configs ++ [c],
          workflows := e.workflows ++ [w.optimized] } := by
      rintro v rfl
      unfold Engine.addWorkflow
      dsimp only
      rw [show w.optimized.runs = strip w.runs from rfl, if_neg (by omega)]
      rfl
    have hw : ∀ v ∈ ws, v.id ≠ c.id := by
      intro v hv he
      obtain ⟨c', hc', he'⟩ := Paired.mem hp v hv
      exact hc (List.mem_map.2 ⟨c', hc', by rw [← he', he]⟩)
    have hnext : ∀ saved', (∀ v ∈ ws, findWorkflow v.id saved' = findWorkflow v.id saved) →
        ∃ k, ({ e with
          count := e.count + travCount (strip w.runs), configs := e.configs ++ [c],
          workflows := e.workflows ++ [w.optimized] } : Engine).addWorkflows saved' cs = { e with
            count := k, configs := e.configs ++ c :: cs, workflows := e.workflows ++ (w :: ws).map (·.optimized) } := by
      intro saved' hs'
      obtain ⟨k, hk⟩ := addWorkflows_stored ws cs saved' { e with
          count := e.count + travCount (strip w.runs), configs := e.configs ++ [c],
          workflows := e.workflows ++ [w.optimized] } hp hn
        (fun v hv => (hs' v hv).trans (hs v (List.mem_cons_of_mem _ hv)))
        (by dsimp only; omega)
      refine ⟨k, ?_⟩
      rw [hk]
      simp
    unfold Engine.addWorkflows
    have hf := hs w List.mem_cons_self
    rw [hid] at hf
    rw [hf]
    cases hst : (strip w.runs).isEmpty with
    | true =>
      simp only [if_true]
      rw [hadd { id := c.id } (by
        have : strip w.runs = [] := List.isEmpty_iff.1 hst
        unfold Workflow.optimized
        rw [show w.runs.filter (!·.initial) = strip w.runs from rfl, this, hid])]
      exact hnext saved fun _ _ => rfl
    | false =>
      simp only [Bool.false_eq_true, if_false]
      rw [hadd _ rfl]
      exact hnext _ fun v hv => findWorkflow_filter c.id v.id (hw v hv) saved

theorem twinW_optimized {cs' : List Config} (hc : ∀ c ∈ cs', c.noReturn) : ∀ {ws : List Workflow} {cs : List Config},
    Paired (fun w c => w.id = c.id ∧ c ∈ cs' ∧ Shape c w.runs) ws cs → TwinW ws (ws.map (·.optimized)) cs
  | [], [], _ => trivial
  | w :: ws, c :: cs, ⟨⟨_, h2, h3⟩, h⟩ => by
    obtain ⟨hb, _⟩ := h3.strip
    exact ⟨⟨rfl, hc c h2, h3, Shape.busy hb, (strip_busy hb).symm⟩, twinW_optimized hc h⟩


/-! ### Pending actions only name buffers that exist -/

/-- The pending actions are a set, and each has buffers, all of which exist. -/
def Engine.tidy (e : Engine) : Prop :=
  e.pending.Nodup ∧ ∀ p ∈ e.pending, p.triggers ≠ [] ∧ ∀ t ∈ p.triggers, t ∈ e.triggers

theorem addNew_self {α : Type} [DecidableEq α] : ∀ (l s : List α), l.Nodup → (∀ a ∈ l, a ∉ s) → addNew s l = s ++ l
  | [], s, _, _ => by simp [addNew]
  | a :: l, s, hn, hs => by
    obtain ⟨h1, h2⟩ := List.nodup_cons.1 hn
    unfold addNew
    rw [if_neg (hs a List.mem_cons_self), addNew_self l (s ++ [a]) h2]
    · simp
    · intro x hx hm
      rcases List.mem_append.1 hm with h | h
      · exact hs x (List.mem_cons_of_mem _ hx) h
      · rw [List.mem_singleton.1 h] at hx
        exact h1 hx

theorem stdPending_self {t : List String} {l : List Pending} (hn : l.Nodup)
    (h : ∀ p ∈ l, p.triggers ≠ [] ∧ ∀ x ∈ p.triggers, x ∈ t) : stdPending t l = l := by
  unfold stdPending
  have : (l.filterMap fun p => if p.triggers.any (· ∈ t) then
      some { p with triggers := p.triggers.filter (· ∈ t) } else none) = l := by
    clear hn
    induction l with
    | nil => rfl
    | cons p l ih =>
      obtain ⟨h1, h2⟩ := h p List.mem_cons_self
      have ha : p.triggers.any (· ∈ t) = true := by
        match hp : p.triggers with
        | [] => exact absurd hp h1
        | x :: xs => simp [h2 x (by rw [hp]; exact List.mem_cons_self)]
      have hf : p.triggers.filter (· ∈ t) = p.triggers :=
        List.filter_eq_self.2 fun x hx => by simpa using h2 x hx
      rw [List.filterMap_cons]
      rw [if_pos ha]
      dsimp only
      rw [hf, ih fun q hq => h q (List.mem_cons_of_mem _ hq)]
  rw [this, addNew_self l [] hn (by simp)]
  rfl

theorem stdPending_tidy (t : List String) (l : List Pending) : (stdPending t l).Nodup ∧
    ∀ p ∈ stdPending t l, p.triggers ≠ [] ∧ ∀ x ∈ p.triggers, x ∈ t := by
  refine ⟨addNew_nodup (by simp), ?_⟩
  intro p hp
  unfold stdPending at hp
  rcases mem_addNew.1 hp with hp | hp
  · cases hp
  · obtain ⟨q, _, hq⟩ := List.mem_filterMap.1 hp
    split at hq
    · rename_i ha
      cases hq
      obtain ⟨x, hx, hxt⟩ := List.any_eq_true.1 ha
      refine ⟨List.ne_nil_of_mem (List.mem_filter.2 ⟨hx, hxt⟩), ?_⟩
      intro y hy
      simpa using (List.mem_filter.1 hy).2
    · cases hq

theorem pendingNew_tidy {a : FlushCfg} {s : String} {t c : List String} {p : Pending} (h : Pending.new a s t c = some p) :
    p.triggers ≠ [] ∧ ∀ x ∈ p.triggers, x ∈ t := by
  unfold Pending.new at h
  have hl : ∀ x ∈ (if a.buffers.isEmpty then t else a.buffers.filter (· ∈ t)), x ∈ t := by
    intro x hx
    split at hx
    · exact hx
    · simpa using (List.mem_filter.1 hx).2
  generalize (if a.buffers.isEmpty then t else a.buffers.filter (· ∈ t)) = l at h hl
  split at h
  · cases h
  · rename_i hn
    rw [← Option.some.inj h]
    exact ⟨fun h' => hn (by rw [show l = [] from h']; rfl), hl⟩

theorem addWorkflows_rest : ∀ (cs : List Config) (saved : List Workflow) (e : Engine),
    ∃ k a b, e.addWorkflows saved cs = { e with count := k, configs := a, workflows := b }
  | [], _, e => ⟨e.count, e.configs, e.workflows, rfl⟩
  | c :: cs, saved, e => by
    unfold Engine.addWorkflows
    split
    · obtain ⟨k, a, b, h⟩ := addWorkflows_rest cs _ (e.addWorkflow _ c)
      exact ⟨k, a, b, h⟩
    · obtain ⟨k, a, b, h⟩ := addWorkflows_rest cs saved (e.addWorkflow _ c)
      exact ⟨k, a, b, h⟩

theorem fold_rest : ∀ (l : List Config) (e : Engine),
    ∃ k a b, l.foldl (fun e c => e.addWorkflow { id := c.id } c) e = { e with count := k, configs := a, workflows := b }
  | [], e => ⟨e.count, e.configs, e.workflows, rfl⟩
  | c :: l, e => by
    obtain ⟨k, a, b, h⟩ := fold_rest l (e.addWorkflow { id := c.id } c)
    exact ⟨k, a, b, h⟩

theorem tidy_apply {e : Engine} (h : e.tidy) (op : Op) : (e.apply op).tidy := by
  cases op with
  | start limit readable oks ec =>
    show (e.start limit readable oks ec).tidy
    unfold Engine.start
    dsimp only
    split
    · rename_i s _
      obtain ⟨k, a, b, hk⟩ := addWorkflows_rest ec.configs s.workflows
        { limit := limit, triggers := ec.triggers, conts := ec.conts, disk := if readable then e.disk else none,
          pending := stdPending ec.triggers s.pending, streams := stdStreams ec.triggers ec.conts s.streams,
          session := s.session }
      rw [hk]
      exact stdPending_tidy _ _
    · obtain ⟨k, a, b, hk⟩ := addWorkflows_rest ec.configs []
        { limit := limit, triggers := ec.triggers, conts := ec.conts, disk := if readable then e.disk else none }
      rw [hk]
      exact ⟨by simp, by intro p hp; cases hp⟩
  | update ec =>
    show (e.update ec).tidy
    unfold Engine.update
    exact stdPending_tidy _ _
  | log l dests v =>
    have he : (e.enter l.session).pending = e.pending ∧ (e.enter l.session).triggers = e.triggers := by
      unfold Engine.enter
      split
      · exact ⟨rfl, rfl⟩
      · split <;> exact ⟨rfl, rfl⟩
    have h' : (e.enter l.session).tidy := by
      unfold Engine.tidy
      rw [he.1, he.2]
      exact h
    show ((e.enter l.session).handle l dests v).1.tidy
    unfold Engine.handle
    split
    · exact h'
    · refine ⟨addNew_nodup h'.1, ?_⟩
      intro p hp
      rcases mem_addNew.1 hp with hp | hp
      · exact h'.2 p hp
      · unfold processFlush at hp
        rcases processFlush_new _ _ _ _ _ _ _ p hp with hp | ⟨_, _, a, _, ha⟩
        · cases hp
        · exact pendingNew_tidy ha
  | approved q ok =>
    have : (e.approved q ok).pending = e.pending.filter (· ≠ q) ∧ (e.approved q ok).triggers = e.triggers := by
      unfold Engine.approved
      dsimp only
      split
      · split <;> exact ⟨rfl, rfl⟩
      · exact ⟨rfl, rfl⟩
    show (e.approved q ok).tidy
    unfold Engine.tidy
    rw [this.1, this.2]
    exact ⟨h.1.filter _, fun p hp => h.2 p (List.mem_filter.1 hp).1⟩
  | rejected q => exact ⟨h.1.filter _, fun p hp => h.2 p (List.mem_filter.1 hp).1⟩
  | flushed id => exact h
  | persist due out =>
    show (e.persist due out).tidy
    unfold Engine.persist
    split <;> exact h

theorem tidy_run : ∀ (ops : List Op) {e : Engine}, e.tidy → (e.run ops).tidy
  | [], _, h => h
  | op :: ops, _, h => by
    unfold Engine.run
    simp only [List.foldl_cons]
    exact tidy_run ops (tidy_apply h op)

/-! ### C37 -/

/-- The state is on disk, identifiers are not repeated, there is room, no flush is going on, and the buffers streamed from
and to exist. -/
structure AtRest (e : Engine) : Prop where
  disk : e.disk = some e.saved
  ids : (e.configs.map (·.id)).Nodup
  room : e.total ≤ e.limit
  flushes : ∀ i, (lookup i e.flushes).getD true = true
  streams : stdStreams e.triggers e.conts e.streams = e.streams

/-- The configuration an engine has. -/
def Engine.cfg (e : Engine) : EngineCfg := ⟨e.configs, e.triggers, e.conts⟩

/-- A new process before the workflows are added, with the state of the old one. -/
def Engine.bare (e : Engine) (limit : Nat) : Engine :=
  { limit := limit, triggers := e.triggers, conts := e.conts, disk := e.disk, pending := e.pending, streams := e.streams,
    session := e.session }

/-- C37.  Take any history of the engine with workflows in which no transition leads back to the first state, after which
the state is on disk.  An engine restarted from the disk, with any limit that is large enough, answers every later log as
the old engine would have, and hands the same metrics, paths and flush requests to the others, as long as the limit for
traversals is not hit; its pending actions are sent again, and nothing else is.
Missing: workflows that return to their first state, flushes going on, a limit that is hit: for each there is a witness in StoreProps. -/
theorem C37_restore_partial (hist ops : List Op) (limit : Nat) (oks : List Bool)
    (hc : ∀ c ∈ histConfigs hist, c.noReturn) (hs : AtRest (({} : Engine).run hist))
    (hl : (({} : Engine).run hist).total ≤ limit)
    (h1 : SmoothRun (({} : Engine).run hist) ops)
    (h2 : SmoothRun ((({} : Engine).run hist).start limit true oks (({} : Engine).run hist).cfg) ops)
    (log : Log) (dests : List String) (v : LogEnv) (h3 : smoothOp ((({} : Engine).run hist).run ops) (.log log dests v))
    (h4 : smoothOp (((({} : Engine).run hist).start limit true oks (({} : Engine).run hist).cfg).run ops)
      (.log log dests v)) :
    let o := (({} : Engine).run hist)
    let o' := (o.run ops)
    let n' := ((o.start limit true oks o.cfg).run ops)
    (n'.processLog log dests v).2 = (o'.processLog log dests v).2 ∧
      o'.emitted = o.emitted ++ n'.emitted ∧ o'.paths = o.paths ++ n'.paths ∧
      o'.requests = o.requests ++ n'.requests ∧ n'.pending = o'.pending ∧ n'.streams = o'.streams ∧
      ∃ l, o'.sent = o.sent ++ l ∧ n'.sent = accepted o.pending oks ++ l := by
  have hg : Good (histConfigs hist) Shape (fun w => ∀ r ∈ w.runs, r.busy) (({} : Engine).run hist) :=
    Good.run (shape_keeps hc) hist Good.init mem_histConfigs
  have ht : (({} : Engine).run hist).tidy := tidy_run hist ⟨by simp, by intro p hp; cases hp⟩
  generalize ({} : Engine).run hist = o at hg hs hl h1 h2 h3 h4 ht ⊢
  have htp : stdPending o.triggers o.pending = o.pending := stdPending_self ht.1 ht.2
  have hpair : Paired (fun w c => w.id = c.id) o.workflows o.configs := Paired.mono (fun w c h => h.1) hg.1
  have hids : (o.workflows.map (·.id)).Nodup := by
    have : ∀ {ws : List Workflow} {cs : List Config}, Paired (fun w c => w.id = c.id) ws cs →
        ws.map (·.id) = cs.map (·.id) := by
      intro ws
      induction ws with
      | nil => intro cs h; cases cs with
        | nil => rfl
        | cons c cs => cases h
      | cons w ws ih => intro cs h; cases cs with
        | nil => cases h
        | cons c cs => simp only [List.map_cons]; rw [h.1, ih h.2]
    rw [this hpair]
    exact hs.ids
  have key : Twin o (o.start limit true oks o.cfg) o.paths o.emitted o.requests o.sent (accepted o.pending oks) := by
    obtain ⟨k, hk⟩ := addWorkflows_stored o.workflows o.configs (stored o.workflows) (o.bare limit) hpair hs.ids
      (findWorkflow_stored hids) (by have := hl; unfold Engine.total at this; show 0 + _ ≤ limit; omega)
    have hstart : o.start limit true oks o.cfg =
        { ((o.bare limit).addWorkflows (stored o.workflows) o.configs) with
          sent := accepted ((o.bare limit).addWorkflows (stored o.workflows) o.configs).pending oks } := by
      have hb : o.bare limit = { o.bare limit with
        pending := stdPending o.triggers o.pending, streams := stdStreams o.triggers o.conts o.streams } := by
          rw [htp, hs.streams]; rfl
      rw [hb]
      unfold Engine.start Engine.cfg Engine.bare
      simp only [if_true]
      rw [hs.disk]
      rfl
    rw [hstart, hk]
    refine ⟨rfl, ?_, rfl, rfl, rfl, ?_, rfl, rfl, (List.append_nil _).symm, (List.append_nil _).symm,
      (List.append_nil _).symm, [], (List.append_nil _).symm, (List.append_nil _).symm⟩
    · exact twinW_optimized hc hg.1
    · intro i
      rw [hs.flushes i]
      rfl
  have hr := key.run ops h1 h2
  obtain ⟨_, hres⟩ := (hr.enter log.session).handle log dests v h3 h4
  exact ⟨hres, hr.emitted, hr.paths, hr.requests, hr.pending, hr.streams, hr.sent⟩

end Verif.Wf
