import Verif.Workflow.StopProps

/-!
C36: nothing of the workflows of one session is left when the first log of the next one is processed.

`C36_progress`: from that log on, the workflows, the counter, the actions and everything emitted are those of an engine
that was started with the same configuration and nothing on disk, whatever happened before.  Uploads that are being
negotiated, and streaming whose flush is still going on, are meant to outlast the session; `C36_isolated` says that
without these, all of the engine is as good as new, and `C36_streaming` that the streaming of earlier sessions ends.
-/
namespace Verif.Wf

/-- An engine that was started with this configuration, nothing being stored. -/
def fresh (limit : Nat) (ec : EngineCfg) : Engine := ({} : Engine).start limit false [] ec

theorem addWorkflows_fresh : ∀ (l : List Config) (e : Engine), e.count ≤ e.limit →
    e.addWorkflows [] l =
      { e with configs := e.configs ++ l, workflows := e.workflows ++ l.map fun c => { id := c.id } }
  | [], e, _ => by simp [Engine.addWorkflows]
  | c :: l, e, h => by
    unfold Engine.addWorkflows
    simp only [findWorkflow]
    have : e.addWorkflow { id := c.id } c =
        { e with configs := e.configs ++ [c], workflows := e.workflows ++ [{ id := c.id }] } := by
      unfold Engine.addWorkflow
      simp only [travCount, List.map_nil, List.sum_nil, Nat.zero_add]
      rw [if_neg (by omega)]
      rfl
    rw [this]
    refine (addWorkflows_fresh l _ ?_).trans ?_
    · exact h
    · simp

theorem fresh_eq (limit : Nat) (ec : EngineCfg) : fresh limit ec =
    { limit := limit, triggers := ec.triggers, conts := ec.conts, configs := ec.configs,
      workflows := ec.configs.map fun c => { id := c.id } } := by
  unfold fresh Engine.start
  simp only [Bool.false_eq_true, if_false]
  rw [addWorkflows_fresh _ _ (Nat.zero_le _)]
  simp

/-- The engines agree in all that has to do with workflows; `b` has emitted more by what `x` had emitted earlier. -/
structure Same (a b : Engine) (paths : List Path) (emitted : List Emitted) : Prop where
  configs : b.configs = a.configs
  workflows : b.workflows = a.workflows
  session : b.session = a.session
  count : b.count = a.count
  limit : b.limit = a.limit
  triggers : b.triggers = a.triggers
  conts : b.conts = a.conts
  paths : b.paths = paths ++ a.paths
  emitted : b.emitted = emitted ++ a.emitted

theorem Same.addWorkflow {a b : Engine} {p : List Path} {x : List Emitted} (h : Same a b p x) (w : Workflow)
    (c : Config) : Same (a.addWorkflow w c) (b.addWorkflow w c) p x := by
  unfold Engine.addWorkflow
  refine ⟨?_, ?_, h.session, ?_, h.limit, h.triggers, h.conts, h.paths, h.emitted⟩
  · dsimp only; rw [h.configs]
  · dsimp only; rw [h.workflows, h.limit, h.count]
  · dsimp only; rw [h.limit, h.count]

theorem Same.fold {p : List Path} {x : List Emitted} : ∀ (l : List Config) {a b : Engine}, Same a b p x →
    Same (l.foldl (fun e c => e.addWorkflow { id := c.id } c) a) (l.foldl (fun e c => e.addWorkflow { id := c.id } c) b) p x
  | [], _, _, h => h
  | _ :: l, _, _, h => Same.fold l (h.addWorkflow _ _)

theorem Same.update {a b : Engine} {p : List Path} {x : List Emitted} (h : Same a b p x) (ec : EngineCfg) :
    Same (a.update ec) (b.update ec) p x := by
  have h1 : Same (a.removeWorkflows fun x => findConfig x.1.id ec.configs == some x.2)
      (b.removeWorkflows fun x => findConfig x.1.id ec.configs == some x.2) p x := by
    unfold Engine.removeWorkflows
    refine ⟨?_, ?_, h.session, ?_, h.limit, h.triggers, h.conts, h.paths, h.emitted⟩ <;> dsimp only <;>
      rw [h.workflows, h.configs]
    rw [h.count]
  have h2 : Same (a.updateWorkflows ec.configs) (b.updateWorkflows ec.configs) p x := by
    unfold Engine.updateWorkflows
    dsimp only
    rw [h1.workflows]
    exact Same.fold _ h1
  exact ⟨h2.configs, h2.workflows, h2.session, h2.count, h2.limit, rfl, rfl, h2.paths, h2.emitted⟩

theorem Same.enter {a b : Engine} {p : List Path} {x : List Emitted} (h : Same a b p x) (s : String) :
    Same (a.enter s) (b.enter s) p x := by
  unfold Engine.enter
  rw [h.session]
  split
  · exact ⟨h.configs, h.workflows, rfl, h.count, h.limit, h.triggers, h.conts, h.paths, h.emitted⟩
  · split
    · exact ⟨h.configs, by dsimp only; rw [h.workflows], rfl, rfl, h.limit, h.triggers, h.conts, h.paths, h.emitted⟩
    · exact h

theorem flush_ids (session : String) (t c : List String) (p q : List Pending) (s u : List Stream) :
    ∀ (l : List FlushCfg) (r r' : FlushResult), r.actionIds = r'.actionIds → r.bufferIds = r'.bufferIds →
      (l.foldl (FlushResult.add session t c p s) r).actionIds = (l.foldl (FlushResult.add session t c q u) r').actionIds ∧
      (l.foldl (FlushResult.add session t c p s) r).bufferIds = (l.foldl (FlushResult.add session t c q u) r').bufferIds
  | [], _, _, h1, h2 => ⟨h1, h2⟩
  | a :: l, r, r', h1, h2 => by
    simp only [List.foldl_cons]
    apply flush_ids session t c p q s u l
    · unfold FlushResult.add
      cases Pending.new a session t c <;> simp [h1]
    · unfold FlushResult.add
      cases Pending.new a session t c <;> simp [h2]

theorem Same.handle {a b : Engine} {p : List Path} {x : List Emitted} (h : Same a b p x) (log : Log)
    (dests : List String) (v : LogEnv) :
    Same (a.handle log dests v).1 (b.handle log dests v).1 p x ∧
      (b.handle log dests v).2.actionIds = (a.handle log dests v).2.actionIds ∧
      (b.handle log dests v).2.bufferIds = (a.handle log dests v).2.bufferIds ∧
      (b.handle log dests v).2.screenshot = (a.handle log dests v).2.screenshot := by
  unfold Engine.handle
  rw [h.workflows]
  split
  · exact ⟨h, rfl, rfl, rfl⟩
  · rw [h.configs, h.limit, h.count, h.session, h.triggers, h.conts]
    have hf := fun q u => flush_ids a.session a.triggers a.conts b.pending a.pending q u
      (flushActions (processAll a.limit log a.count (a.workflows.zip a.configs)).2.2.1) {} {} rfl rfl
    refine ⟨⟨rfl, rfl, rfl, rfl, rfl, rfl, rfl, ?_, ?_⟩, ?_, ?_, rfl⟩
    · dsimp only; rw [h.paths, List.append_assoc]
    · dsimp only; rw [h.emitted]; simp only [List.append_assoc]
    · exact (hf _ _).1
    · exact (hf _ _).2

/-- Not a restart. -/
def Op.continues : Op → Bool
  | .start .. => false
  | _ => true

theorem Same.apply {a b : Engine} {p : List Path} {x : List Emitted} (h : Same a b p x) (op : Op)
    (ho : op.continues = true) : Same (a.apply op) (b.apply op) p x := by
  cases op with
  | start limit readable oks ec => cases ho
  | update ec => exact h.update ec
  | log l dests v => exact ((h.enter l.session).handle l dests v).1
  | approved q ok =>
    have key : ∀ e : Engine, ∃ d f r s q', e.approved q ok =
        { e with dirty := d, flushes := f, requests := r, streams := s, pending := q' } := by
      intro e
      unfold Engine.approved
      dsimp only
      split
      · split
        · exact ⟨_, _, _, _, _, rfl⟩
        · exact ⟨_, _, _, _, _, rfl⟩
      · exact ⟨_, _, _, _, _, rfl⟩
    obtain ⟨_, _, _, _, _, ha⟩ := key a
    obtain ⟨_, _, _, _, _, hb⟩ := key b
    show Same (a.approved q ok) (b.approved q ok) p x
    rw [ha, hb]
    exact ⟨h.configs, h.workflows, h.session, h.count, h.limit, h.triggers, h.conts, h.paths, h.emitted⟩
  | rejected q => exact ⟨h.configs, h.workflows, h.session, h.count, h.limit, h.triggers, h.conts, h.paths, h.emitted⟩
  | flushed id => exact ⟨h.configs, h.workflows, h.session, h.count, h.limit, h.triggers, h.conts, h.paths, h.emitted⟩
  | persist due out =>
    have key : ∀ e : Engine, ∃ d k, e.persist due out = { e with dirty := d, disk := k } := by
      intro e
      unfold Engine.persist
      split
      · exact ⟨_, _, rfl⟩
      · exact ⟨_, _, rfl⟩
    obtain ⟨_, _, ha⟩ := key a
    obtain ⟨_, _, hb⟩ := key b
    show Same (a.persist due out) (b.persist due out) p x
    rw [ha, hb]
    exact ⟨h.configs, h.workflows, h.session, h.count, h.limit, h.triggers, h.conts, h.paths, h.emitted⟩

theorem Same.run {p : List Path} {x : List Emitted} : ∀ (ops : List Op) {a b : Engine}, Same a b p x →
    (∀ op ∈ ops, op.continues = true) → Same (a.run ops) (b.run ops) p x
  | [], _, _, h, _ => h
  | op :: ops, _, _, h, ho => by
    unfold Engine.run
    simp only [List.foldl_cons]
    exact Same.run ops (h.apply op (ho op List.mem_cons_self)) fun y hy => ho y (List.mem_cons_of_mem _ hy)

theorem paired_ids {P : Workflow → Config → Prop} (hp : ∀ w c, P w c → w.id = c.id) :
    ∀ {ws : List Workflow} {cs : List Config}, Paired P ws cs →
      (ws.map fun w => ({ w with runs := [] } : Workflow)) = cs.map fun c => { id := c.id }
  | [], [], _ => rfl
  | w :: ws, c :: cs, ⟨h1, h2⟩ => by
    simp only [List.map_cons, paired_ids hp h2, hp w c h1]

theorem keeps_nothing (cs : List Config) : Keeps cs (fun _ _ => True) (fun _ => True) :=
  ⟨fun _ _ => trivial, fun _ _ _ _ _ _ _ => trivial, fun _ _ _ _ => trivial, fun _ _ _ _ _ => trivial⟩

theorem new_session {e : Engine} {s : String} {cs : List Config} (hg : Good cs (fun _ _ => True) (fun _ => True) e)
    (hne : e.session ≠ "") (hs : e.session ≠ s) :
    Same ((fresh e.limit ⟨e.configs, e.triggers, e.conts⟩).enter s) (e.enter s) e.paths e.emitted := by
  have hids : (e.workflows.map fun w => ({ w with runs := [] } : Workflow)) = e.configs.map fun c => { id := c.id } := by
    exact paired_ids (fun _ _ h => h.1) hg.1
  rw [fresh_eq]
  unfold Engine.enter
  rw [if_neg hne, if_pos hs]
  dsimp only
  refine ⟨rfl, hids, rfl, rfl, rfl, rfl, rfl, ?_, ?_⟩ <;> dsimp only <;> simp

/-- C36.  After any history, a log with a new session identifier and whatever follows it up to the next restart: the
workflows with their runs, and the counter, are those of an engine that was started with the same configuration and an
empty disk and got the same input; and everything emitted since is the same. -/
theorem C36_progress (before after : List Op) (log : Log) (dests : List String) (v : LogEnv)
    (hne : (({} : Engine).run before).session ≠ "") (hs : (({} : Engine).run before).session ≠ log.session)
    (ho : ∀ op ∈ after, op.continues = true) :
    let e := ({} : Engine).run before
    let old := e.run (.log log dests v :: after)
    let new := (fresh e.limit ⟨e.configs, e.triggers, e.conts⟩).run (.log log dests v :: after)
    old.workflows = new.workflows ∧ old.configs = new.configs ∧ old.count = new.count ∧ old.session = new.session ∧
      old.emitted = e.emitted ++ new.emitted ∧ old.paths = e.paths ++ new.paths := by
  have hg : Good (histConfigs before) (fun _ _ => True) (fun _ => True) (({} : Engine).run before) :=
    Good.run (keeps_nothing _) before Good.init mem_histConfigs
  have h1 := new_session (s := log.session) hg hne hs
  have h2 := Same.run after ((h1.handle log dests v).1) ho
  exact ⟨h2.workflows, h2.configs, h2.count, h2.session, h2.emitted, h2.paths⟩

/-- C36.  The same for what `process_log` returns for that log: the actions triggered, the buffers they name, and whether
to take a screenshot. -/
theorem C36_result (before : List Op) (log : Log) (dests : List String) (v : LogEnv)
    (hne : (({} : Engine).run before).session ≠ "") (hs : (({} : Engine).run before).session ≠ log.session) :
    let e := ({} : Engine).run before
    let old := (e.processLog log dests v).2
    let new := ((fresh e.limit ⟨e.configs, e.triggers, e.conts⟩).processLog log dests v).2
    old.actionIds = new.actionIds ∧ old.bufferIds = new.bufferIds ∧ old.screenshot = new.screenshot := by
  have hg : Good (histConfigs before) (fun _ _ => True) (fun _ => True) (({} : Engine).run before) :=
    Good.run (keeps_nothing _) before Good.init mem_histConfigs
  exact ((new_session (s := log.session) hg hne hs).handle log dests v).2

/-- C36.  Streaming ends with the session: after a log, an engine with workflows streams for no other session than that of
the log, except for actions whose buffers are still being flushed. -/
theorem C36_streaming (e : Engine) (log : Log) (dests : List String) (v : LogEnv) (hw : e.workflows ≠ []) :
    ∀ s ∈ (e.processLog log dests v).1.streams, s.session = log.session ∨ lookup s.id e.flushes = some false := by
  have hsess : (e.enter log.session).session = log.session := by
    unfold Engine.enter
    split
    · rfl
    · split
      · rfl
      · rename_i _ h; simpa using h
  have hfl : (e.enter log.session).flushes = e.flushes := by
    unfold Engine.enter
    split
    · rfl
    · split <;> rfl
  have hwf : (e.enter log.session).workflows.isEmpty = false := by
    unfold Engine.enter
    split
    · simpa using hw
    · split
      · simpa using hw
      · simpa using hw
  intro s hmem
  unfold Engine.processLog Engine.handle at hmem
  rw [hwf] at hmem
  simp only [Bool.false_eq_true, if_false, processStreams, countStreams, retainStreams] at hmem
  obtain ⟨s', hs', rfl⟩ := List.mem_map.1 hmem
  obtain ⟨y, hy, rfl⟩ := List.mem_map.1 hs'
  obtain ⟨hy1, hy2⟩ := List.mem_filter.1 hy
  obtain ⟨z, _, rfl⟩ := List.mem_map.1 hy1
  dsimp only at hy2 ⊢
  rw [hsess, hfl] at hy2
  have hid : ∀ (q : Stream), (if q.applies dests then { q with count := q.count + 1 } else q).id = q.id ∧
      (if q.applies dests then { q with count := q.count + 1 } else q).session = q.session := by
    intro q
    split <;> exact ⟨rfl, rfl⟩
  rw [(hid z).1, (hid z).2]
  by_cases h : z.session = log.session
  · exact .inl h
  · right
    cases hl : lookup z.id e.flushes with
    | none => simp [hl, h] at hy2
    | some b =>
      cases b with
      | false => rfl
      | true => simp [hl, h] at hy2

/-- An engine with no workflow leaves early: its streaming actions outlast the session and take effect on no log. -/
theorem C36_no_workflow (e : Engine) (log : Log) (dests : List String) (v : LogEnv) (hw : e.workflows = []) :
    (e.processLog log dests v).1.streams = e.streams ∧ (e.processLog log dests v).2.dests = dests := by
  have hwf : (e.enter log.session).workflows = [] ∧ (e.enter log.session).streams = e.streams := by
    unfold Engine.enter
    split
    · exact ⟨hw, rfl⟩
    · split
      · simp [hw]
      · exact ⟨hw, rfl⟩
  unfold Engine.processLog Engine.handle
  rw [hwf.1]
  exact ⟨hwf.2, rfl⟩

/-! ### All of the engine -/

/-- The engines agree in all that determines what they do next. -/
structure Equal (a b : Engine) (paths : List Path) (emitted : List Emitted) (sent : List Pending)
    (requests : List (String × List String)) : Prop extends Same a b paths emitted where
  pending : b.pending = a.pending
  streams : b.streams = a.streams
  flushes : ∀ id, (lookup id b.flushes).getD true = (lookup id a.flushes).getD true
  sent : b.sent = sent ++ a.sent
  requests : b.requests = requests ++ a.requests

theorem lookup_filter_ne {α : Type} (k i : String) : ∀ (l : List (String × α)),
    lookup i (l.filter fun x => x.1 ≠ k) = if i = k then none else lookup i l
  | [] => by simp [lookup]
  | e :: l => by
    have ih := lookup_filter_ne k i l
    simp only [List.filter_cons]
    by_cases he : e.1 = k
    · simp only [he, ne_eq, not_true_eq_false, decide_false, Bool.false_eq_true, if_false]
      rw [ih]
      unfold lookup
      by_cases hik : i = k
      · rw [if_pos hik, if_pos hik]
      · rw [if_neg hik, if_neg hik, if_neg (by rw [he]; exact fun h => hik h.symm)]
        cases l <;> rfl
    · simp only [ne_eq, he, not_false_eq_true, decide_true, if_true]
      unfold lookup
      by_cases hei : e.1 = i
      · rw [if_pos hei, if_neg (by rw [← hei]; exact he), if_pos hei]
      · rw [if_neg hei, if_neg hei]
        rw [ih]

theorem lookup_setFlush (k i : String) (b : Bool) (l : List (String × Bool)) :
    lookup i (setFlush k b l) = if i = k then some b else lookup i l := by
  unfold setFlush
  rw [lookup]
  dsimp only
  by_cases h : i = k
  · rw [if_pos h.symm, if_pos h]
  · rw [if_neg (fun h' => h h'.symm), if_neg h, lookup_filter_ne, if_neg h]

theorem lookup_flushed (k i : String) : ∀ (l : List (String × Bool)),
    (lookup i (l.map fun x => if x.1 = k then (x.1, true) else x)).getD true =
      if i = k then true else (lookup i l).getD true
  | [] => by simp [lookup]
  | e :: l => by
    have ih := lookup_flushed k i l
    simp only [List.map_cons]
    unfold lookup
    by_cases hk : e.1 = k
    · rw [if_pos hk]
      dsimp only
      by_cases hi : e.1 = i
      · rw [if_pos hi, if_pos (by rw [← hi]; exact hk)]
        rfl
      · rw [if_neg hi, if_neg hi]
        exact ih
    · rw [if_neg hk]
      by_cases hi : e.1 = i
      · rw [if_pos hi, if_pos hi, if_neg (by rw [← hi]; exact hk)]
      · rw [if_neg hi, if_neg hi]
        exact ih

variable {a b : Engine} {p : List Path} {x : List Emitted} {sn : List Pending} {rq : List (String × List String)}

theorem Equal.enter (h : Equal a b p x sn rq) (s : String) : Equal (a.enter s) (b.enter s) p x sn rq := by
  have hs := h.toSame.enter s
  have key : ∀ e : Engine, (e.enter s).pending = e.pending ∧ (e.enter s).streams = e.streams ∧
      (e.enter s).flushes = e.flushes ∧ (e.enter s).sent = e.sent ∧ (e.enter s).requests = e.requests := by
    intro e
    unfold Engine.enter
    split
    · exact ⟨rfl, rfl, rfl, rfl, rfl⟩
    · split <;> exact ⟨rfl, rfl, rfl, rfl, rfl⟩
  obtain ⟨a1, a2, a3, a4, a5⟩ := key a
  obtain ⟨b1, b2, b3, b4, b5⟩ := key b
  exact ⟨hs, by rw [a1, b1, h.pending], by rw [a2, b2, h.streams], by rw [a3, b3]; exact h.flushes,
    by rw [a4, b4, h.sent], by rw [a5, b5, h.requests]⟩

theorem handle_dests (e : Engine) (log : Log) (dests : List String) (v : LogEnv) (hw : e.workflows.isEmpty = false) :
    (e.handle log dests v).2.dests = (processStreams e.triggers e.conts
      (e.streams.map fun s => (s, (lookup s.id e.flushes).getD true)) dests e.session).1 := by
  unfold Engine.handle
  rw [hw]
  rfl

theorem Equal.handle (h : Equal a b p x sn rq) (log : Log) (dests : List String) (v : LogEnv) :
    Equal (a.handle log dests v).1 (b.handle log dests v).1 p x sn rq ∧
      (b.handle log dests v).2 = (a.handle log dests v).2 := by
  have hs := (h.toSame.handle log dests v).1
  have hflush : (b.streams.map fun s => (s, (lookup s.id b.flushes).getD true)) =
      a.streams.map fun s => (s, (lookup s.id a.flushes).getD true) := by
    rw [h.streams]
    apply List.map_congr_left
    intro s _
    rw [h.flushes]
  unfold Engine.handle at hs ⊢
  rw [h.workflows] at hs ⊢
  by_cases he : a.workflows.isEmpty = true
  · rw [if_pos he, if_pos he]
    exact ⟨h, rfl⟩
  · rw [if_neg he, if_neg he] at hs ⊢
    refine ⟨⟨hs, ?_, ?_, h.flushes, ?_, h.requests⟩, ?_⟩
    all_goals
      dsimp only
      rw [hflush]
      simp only [h.configs, h.limit, h.count, h.session, h.triggers, h.conts, h.pending]
    rw [h.sent, List.append_assoc]

theorem Equal.approved (h : Equal a b p x sn rq) (q : Pending) (ok : Bool) :
    Equal (a.approved q ok) (b.approved q ok) p x sn rq := by
  unfold Engine.approved
  dsimp only
  rw [h.flushes]
  split
  · split
    · refine ⟨⟨h.configs, h.workflows, h.session, h.count, h.limit, h.triggers, h.conts, h.paths, h.emitted⟩, ?_, ?_, ?_,
        h.sent, ?_⟩
      · dsimp only; rw [h.pending]
      · dsimp only; rw [h.streams, h.conts]
      · intro i
        dsimp only
        rw [lookup_setFlush, lookup_setFlush]
        split
        · rfl
        · exact h.flushes i
      · dsimp only; rw [h.requests, List.append_assoc]
    · refine ⟨⟨h.configs, h.workflows, h.session, h.count, h.limit, h.triggers, h.conts, h.paths, h.emitted⟩, ?_, ?_, ?_,
        h.sent, h.requests⟩
      · dsimp only; rw [h.pending]
      · dsimp only; rw [h.streams, h.conts]
      · intro i
        dsimp only
        rw [lookup_filter_ne, lookup_filter_ne]
        split
        · rfl
        · exact h.flushes i
  · refine ⟨⟨h.configs, h.workflows, h.session, h.count, h.limit, h.triggers, h.conts, h.paths, h.emitted⟩, ?_, ?_,
      h.flushes, h.sent, h.requests⟩
    · dsimp only; rw [h.pending]
    · dsimp only; rw [h.streams, h.conts]

theorem fold_other : ∀ (l : List Config) (e : Engine), ∃ c n w,
    l.foldl (fun e c => e.addWorkflow { id := c.id } c) e = { e with configs := c, count := n, workflows := w }
  | [], e => ⟨_, _, _, rfl⟩
  | c :: l, e => by
    obtain ⟨c', n, w, h⟩ := fold_other l (e.addWorkflow { id := c.id } c)
    simp only [List.foldl_cons]
    rw [h]
    exact ⟨_, _, _, rfl⟩

theorem update_other (e : Engine) (ec : EngineCfg) : ∃ c n w d, e.update ec =
    { e with configs := c, count := n, workflows := w, dirty := d, triggers := ec.triggers, conts := ec.conts,
             pending := stdPending ec.triggers e.pending, streams := stdStreams ec.triggers ec.conts e.streams } := by
  unfold Engine.update Engine.updateWorkflows
  dsimp only
  obtain ⟨c, n, w, h⟩ := fold_other
    (ec.configs.filter fun c => !((e.removeWorkflows fun x => findConfig x.1.id ec.configs == some x.2).workflows.any (·.id = c.id)))
    (e.removeWorkflows fun x => findConfig x.1.id ec.configs == some x.2)
  rw [h]
  exact ⟨_, _, _, _, rfl⟩

theorem Equal.apply (h : Equal a b p x sn rq) (op : Op) (ho : op.continues = true) :
    Equal (a.apply op) (b.apply op) p x sn rq := by
  have hs := h.toSame.apply op ho
  cases op with
  | start limit readable oks ec => cases ho
  | update ec =>
    obtain ⟨_, _, _, _, ha⟩ := update_other a ec
    obtain ⟨_, _, _, _, hb⟩ := update_other b ec
    have ha : a.apply (.update ec) = _ := ha
    have hb : b.apply (.update ec) = _ := hb
    rw [ha, hb] at hs ⊢
    exact ⟨hs, by dsimp only; rw [h.pending], by dsimp only; rw [h.streams], h.flushes, h.sent, h.requests⟩
  | log l dests v => exact ((h.enter l.session).handle l dests v).1
  | approved q ok => exact h.approved q ok
  | rejected q =>
    refine ⟨hs, ?_, h.streams, h.flushes, h.sent, h.requests⟩
    show b.pending.filter _ = a.pending.filter _
    rw [h.pending]
  | flushed id =>
    refine ⟨hs, h.pending, h.streams, ?_, h.sent, h.requests⟩
    intro i
    show (lookup i (b.flushes.map fun x => if x.1 = id then (x.1, true) else x)).getD true =
      (lookup i (a.flushes.map fun x => if x.1 = id then (x.1, true) else x)).getD true
    rw [lookup_flushed, lookup_flushed, h.flushes]
  | persist due out =>
    have key : ∀ e : Engine, ∃ d k, e.apply (.persist due out) = { e with dirty := d, disk := k } := by
      intro e
      unfold Engine.apply Engine.persist
      dsimp only
      split
      · exact ⟨_, _, rfl⟩
      · exact ⟨_, _, rfl⟩
    obtain ⟨_, _, ha⟩ := key a
    obtain ⟨_, _, hb⟩ := key b
    rw [ha, hb] at hs ⊢
    exact ⟨hs, h.pending, h.streams, h.flushes, h.sent, h.requests⟩

theorem Equal.run : ∀ (ops : List Op) {a b : Engine}, Equal a b p x sn rq →
    (∀ op ∈ ops, op.continues = true) → Equal (a.run ops) (b.run ops) p x sn rq
  | [], _, _, h, _ => h
  | op :: ops, _, _, h, ho => by
    unfold Engine.run
    simp only [List.foldl_cons]
    exact Equal.run ops (h.apply op (ho op List.mem_cons_self)) fun y hy => ho y (List.mem_cons_of_mem _ hy)

/-- Nothing of an earlier session is still being negotiated, streamed under the new identifier, or flushed. -/
def Settled (e : Engine) (s : String) : Prop :=
  e.pending = [] ∧ (∀ st ∈ e.streams, st.session ≠ s) ∧ ∀ id, lookup id e.flushes ≠ some false

theorem enter_other (e : Engine) (s : String) : ∃ w n d, e.enter s =
    { e with session := s, workflows := w, count := n, dirty := d } := by
  unfold Engine.enter
  split
  · exact ⟨_, _, _, rfl⟩
  · split
    · exact ⟨_, _, _, rfl⟩
    · rename_i h
      have : e.session = s := by simpa using h
      subst this
      exact ⟨_, _, _, rfl⟩

theorem first_log {e f : Engine} {s : String} (hs : Same f e p x) (hsess : e.session = s) (hset : Settled e s)
    (hw : e.workflows ≠ []) (hf1 : f.pending = []) (hf2 : f.streams = []) (hf3 : f.flushes = [])
    (log : Log) (dests : List String) (v : LogEnv) :
    Equal (f.handle log dests v).1 (e.handle log dests v).1 p x (e.sent) (e.requests) ∨ f.sent ≠ [] ∨ f.requests ≠ [] := by
  by_cases h4 : f.sent = []
  · by_cases h5 : f.requests = []
    · left
      have hsame := (hs.handle log dests v).1
      have hret : retainStreams s (e.streams.map fun st => (st, (lookup st.id e.flushes).getD true)) = [] := by
        unfold retainStreams
        rw [List.map_eq_nil_iff, List.filter_eq_nil_iff]
        intro y hy
        obtain ⟨st, hst, rfl⟩ := List.mem_map.1 hy
        have hne := hset.2.1 st hst
        cases hl : lookup st.id e.flushes with
        | none => simp [hne]
        | some b =>
          cases b with
          | true => simp [hne]
          | false => exact absurd hl (hset.2.2 _)
      have he : e.workflows.isEmpty = false := by simpa using hw
      have hfe : f.workflows.isEmpty = false := by rw [← hs.workflows]; exact he
      unfold Engine.handle at hsame ⊢
      rw [he, hfe] at hsame ⊢
      simp only [Bool.false_eq_true, if_false] at hsame ⊢
      have hps : (processStreams e.triggers e.conts (e.streams.map fun st => (st, (lookup st.id e.flushes).getD true))
          dests e.session).2.1 = [] := by
        unfold processStreams
        rw [hsess, hret]
        rfl
      have hpf : (processStreams f.triggers f.conts (f.streams.map fun st => (st, (lookup st.id f.flushes).getD true))
          dests f.session).2.1 = [] := by
        rw [hf2]; rfl
      refine ⟨hsame, ?_, ?_, ?_, ?_, ?_⟩
      · dsimp only
        rw [hps, hpf, hf1, hset.1, hs.workflows, hs.configs, hs.limit, hs.count, hs.session, hs.triggers, hs.conts]
      · dsimp only
        rw [hps, hpf]
      · intro i
        dsimp only
        rw [hf3]
        cases hl : lookup i e.flushes with
        | none => rfl
        | some b =>
          cases b with
          | true => rfl
          | false => exact absurd hl (hset.2.2 _)
      · dsimp only
        rw [hps, hpf, hf1, hset.1, h4, hs.workflows, hs.configs, hs.limit, hs.count, hs.session, hs.triggers, hs.conts]
        rfl
      · dsimp only
        rw [h5]
        simp
    · exact .inr (.inr h5)
  · exact .inr (.inl h4)

/-- C36.  After any history that leaves nothing to negotiate or to flush: from the first log of a new session up to the
next restart, the engine does in all respects what an engine does that was started with the same configuration and an
empty disk.  It keeps the same state, sends the same messages, and answers every further log in the same way. -/
theorem C36_isolated (before after : List Op) (log : Log) (dests : List String) (v : LogEnv)
    (hne : (({} : Engine).run before).session ≠ "") (hs : (({} : Engine).run before).session ≠ log.session)
    (hset : Settled (({} : Engine).run before) log.session) (hw : (({} : Engine).run before).workflows ≠ [])
    (ho : ∀ op ∈ after, op.continues = true) :
    let e := ({} : Engine).run before
    let old := e.run (.log log dests v :: after)
    let new := (fresh e.limit ⟨e.configs, e.triggers, e.conts⟩).run (.log log dests v :: after)
    old.workflows = new.workflows ∧ old.pending = new.pending ∧ old.streams = new.streams ∧
      old.emitted = e.emitted ++ new.emitted ∧ old.paths = e.paths ++ new.paths ∧ old.sent = e.sent ++ new.sent ∧
      old.requests = e.requests ++ new.requests ∧
      ∀ log' dests' v', (old.processLog log' dests' v').2 = (new.processLog log' dests' v').2 := by
  have hg : Good (histConfigs before) (fun _ _ => True) (fun _ => True) (({} : Engine).run before) :=
    Good.run (keeps_nothing _) before Good.init mem_histConfigs
  generalize ({} : Engine).run before = e at *
  have h1 := new_session (s := log.session) hg hne hs
  have hwf : (e.enter log.session).workflows ≠ [] := by
    unfold Engine.enter
    rw [if_neg hne, if_pos hs]
    simpa using hw
  obtain ⟨w, n, d, he⟩ := enter_other e log.session
  have hset' : Settled (e.enter log.session) log.session := by rw [he]; exact hset
  have hsess : (e.enter log.session).session = log.session := by rw [he]
  obtain ⟨w', n', d', hf⟩ := enter_other (fresh e.limit ⟨e.configs, e.triggers, e.conts⟩) log.session
  have h2 := first_log h1 hsess hset' hwf (by rw [hf, fresh_eq]) (by rw [hf, fresh_eq]) (by rw [hf, fresh_eq])
    log dests v
  have h3 : Equal (((fresh e.limit ⟨e.configs, e.triggers, e.conts⟩).enter log.session).handle log dests v).1
      ((e.enter log.session).handle log dests v).1 e.paths e.emitted e.sent e.requests := by
    rcases h2 with h2 | h2 | h2
    · have : (e.enter log.session).sent = e.sent ∧ (e.enter log.session).requests = e.requests := by rw [he]; exact ⟨rfl, rfl⟩
      rw [this.1, this.2] at h2
      exact h2
    · exact absurd (by rw [hf, fresh_eq]) h2
    · exact absurd (by rw [hf, fresh_eq]) h2
  have h4 := Equal.run after h3 ho
  refine ⟨h4.workflows, h4.pending, h4.streams, h4.emitted, h4.paths, h4.sent, h4.requests, ?_⟩
  intro log' dests' v'
  exact ((h4.enter log'.session).handle log' dests' v').2

/-! ### An example -/

namespace Ex
def flushing : Config :=
  { id := "f", exclusive := false,
    states := [⟨"0", [⟨1, .logMatch 1 1, [.flush ⟨"fl", ["t"], some ⟨["c"], some 10⟩⟩, act "m"], []⟩]⟩,
      ⟨"1", [⟨2, .logMatch 2 1, [act "b"], []⟩]⟩, ⟨"2", []⟩] }
def flushP : Pending := ⟨"fl", "s", ["t"], some ⟨["c"], some 10⟩⟩
def busy : List Op := [.start 9 true [] ⟨[flushing], ["t"], ["c"]⟩, log [1], .approved flushP true, .flushed "fl", log []]
end Ex

/-- A session with progress, an approved upload and streaming; all of it is gone with the first log of session "r". -/
example : (({} : Engine).run Ex.busy).session = "s" ∧ (({} : Engine).run Ex.busy).streams ≠ [] ∧
    (({} : Engine).run Ex.busy).count = 2 := by decide +kernel
example : Settled (({} : Engine).run Ex.busy) "r" := by
  have h1 : (({} : Engine).run Ex.busy).pending = [] := by decide +kernel
  have h2 : (({} : Engine).run Ex.busy).streams = [⟨"fl", "s", ["t"], ["c"], some 10, 0⟩] := by decide +kernel
  have h3 : (({} : Engine).run Ex.busy).flushes = [("fl", true)] := by decide +kernel
  refine ⟨h1, ?_, ?_⟩
  · rw [h2]; intro st hst; obtain rfl := List.mem_singleton.1 hst; decide
  · intro i; rw [h3]; simp only [lookup]; split <;> simp
example : ((({} : Engine).run Ex.busy).processLog { session := "r", time := 0, hits := [2] } ["t"] {}).1.streams = [] ∧
    ((({} : Engine).run Ex.busy).processLog { session := "r", time := 0, hits := [2] } ["t"] {}).1.emitted.length = 1 ∧
    ((({} : Engine).run Ex.busy).processLog { session := "r", time := 0, hits := [2] } ["t"] {}).2.dests = ["t"] := by decide +kernel

end Verif.Wf
