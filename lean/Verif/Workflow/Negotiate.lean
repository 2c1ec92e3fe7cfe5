import Verif.Workflow.PendingProps

/-
Model of the negotiator task (bd-workflows/src/actions_flush_buffers.rs, `Negotiator`), and of the engine together with it.
Properties C39 (for the two together) and C64.

The task takes one action after the other from its channel.  The environment says how often the stream closes before an
answer comes, and what the answer is.  Output is sent on a channel of capacity 16 with a blocking send; the model lets the
channel grow instead.  Statistics are left out.
-/
namespace Verif.Wf

/-- How a negotiation ends (327-372). -/
inductive Answer where
  /-- `IntentDecision::UploadImmediately` -/
  | yes
  /-- `IntentDecision::Drop` -/
  | no
  /-- the channel to the server task is closed: an error -/
  | closed
  deriving DecidableEq, Repr

/-- An intent: the action and the buffer named in it. -/
structure Intent where
  action : String
  buffer : String
  deriving DecidableEq, Repr

/-- `Negotiator` (79-95).  `intents` are those sent, `outputs` the actions answered with the answer. -/
structure Negotiator where
  rejected : List String := []
  intents : List Intent := []
  outputs : List (Pending × Bool) := []
  deriving DecidableEq, Repr

/-- The request of `perform_action_intent_negotiation` (266-293). -/
def Pending.intent (p : Pending) : Intent := ⟨p.id, p.triggers.head?.getD "no_buffer"⟩

/-- `process_pending_action` (127-254), with `perform_action_intent_negotiation` (256-325) and `perform_intent_negotiation`
(327-372).  `retries` intents are sent before the stream stays open long enough for an answer; the last intent is not sent
if the channel is closed. -/
def Negotiator.process (n : Negotiator) (p : Pending) (retries : Nat) (a : Answer) : Negotiator :=
  if p.id ∈ n.rejected then { n with outputs := n.outputs ++ [(p, false)] }
  else match a with
    | .yes =>
      { n with intents := n.intents ++ List.replicate (retries + 1) p.intent, outputs := n.outputs ++ [(p, true)] }
    | .no =>
      { intents := n.intents ++ List.replicate (retries + 1) p.intent, outputs := n.outputs ++ [(p, false)]
        rejected := n.rejected ++ [p.id] }
    | .closed =>
      { n with intents := n.intents ++ List.replicate retries p.intent, outputs := n.outputs ++ [(p, false)] }

/-! ### The engine with its negotiator -/

/-- `queue` is the channel to the negotiator.  `consents` are the actions for which the server said yes, since the
beginning. -/
structure System where
  engine : Engine := {}
  queue : List Pending := []
  neg : Negotiator := {}
  consents : List Pending := []
  deriving DecidableEq, Repr

inductive SysOp where
  | start (limit : Nat) (readable : Bool) (oks : List Bool) (ec : EngineCfg)
  | update (ec : EngineCfg)
  | log (l : Log) (dests : List String) (v : LogEnv)
  | flushed (id : String)
  | persist (due : Bool) (out : Out)
  /-- the negotiator takes an action from its channel -/
  | negotiate (retries : Nat) (a : Answer)
  /-- the engine takes an output of the negotiator (engine.rs:455-467) -/
  | deliver (sendOk : Bool)
  deriving DecidableEq, Repr

/-- What the engine does in a step. -/
def System.engineOp (s : System) : SysOp → Option Op
  | .start limit readable oks ec => some (.start limit readable oks ec)
  | .update ec => some (.update ec)
  | .log l dests v => some (.log l dests v)
  | .flushed id => some (.flushed id)
  | .persist due out => some (.persist due out)
  | .negotiate _ _ => none
  | .deliver ok => match s.neg.outputs with
    | [] => none
    | (p, true) :: _ => some (.approved p ok)
    | (p, false) :: _ => some (.rejected p)

/-- A new process has a new negotiator (engine.rs:119-123); otherwise what the engine sends joins the channel. -/
def System.step (s : System) (op : SysOp) : System :=
  match op with
  | .start .. =>
    let e := (s.engineOp op).elim s.engine s.engine.apply
    { s with engine := e, queue := e.sent, neg := {} }
  | .negotiate r a => match s.queue with
    | [] => s
    | p :: q =>
      { s with
        queue := q, neg := s.neg.process p r a
        consents := if p.id ∉ s.neg.rejected ∧ a = .yes then s.consents ++ [p] else s.consents }
  | .deliver _ =>
    { s with
      engine := (s.engineOp op).elim s.engine s.engine.apply
      neg := { s.neg with outputs := s.neg.outputs.drop 1 } }
  | .log .. =>
    let e := (s.engineOp op).elim s.engine s.engine.apply
    { s with engine := e, queue := s.queue ++ e.sent.drop s.engine.sent.length }
  | _ => { s with engine := (s.engineOp op).elim s.engine s.engine.apply }

def System.run (s : System) (ops : List SysOp) : System := ops.foldl System.step s

/-- The negotiations going on: waiting, or answered and not yet delivered. -/
def System.flying (s : System) : List Pending := s.neg.outputs.map (·.1) ++ s.queue

def SysOp.configs : SysOp → List Config
  | .start _ _ _ ec => ec.configs
  | .update ec => ec.configs
  | _ => []

/-- An update leaves each pending action one of its buffers. -/
def System.gentle (s : System) : SysOp → Prop
  | .update ec => ∀ p ∈ s.engine.pending, ∃ t ∈ p.triggers, t ∈ ec.triggers
  | _ => True

def Gentle : System → List SysOp → Prop
  | _, [] => True
  | s, op :: ops => s.gentle op ∧ Gentle (s.step op) ops

theorem process_outputs (n : Negotiator) (p : Pending) (r : Nat) (a : Answer) :
    (n.process p r a).outputs = n.outputs ++ [(p, decide (p.id ∉ n.rejected ∧ a = .yes))] := by
  unfold Negotiator.process
  split
  · rename_i h; simp [h]
  · rename_i h
    cases a <;> simp [h]

/-- The negotiator answers each action it takes exactly once, and says yes exactly if the server did. -/
theorem system_flying {cs : List Config} (s : System) (op : SysOp) (hs : s.gentle op)
    (hc : ∀ c ∈ op.configs, c ∈ cs) (ha : OneAction cs) (h : Once cs s.engine s.flying) :
    Once cs (s.step op).engine (s.step op).flying := by
  cases op with
  | start limit readable oks ec =>
    have := h.step ha (.start limit readable oks ec) hc (by unfold sensible; trivial)
    unfold fly at this
    simpa [System.step, System.flying, System.engineOp] using this
  | update ec =>
    have := h.step ha (.update ec) hc (by unfold sensible; exact hs)
    unfold fly at this
    simpa [System.step, System.flying, System.engineOp] using this
  | log l dests v =>
    have := h.step ha (.log l dests v) (by intro c hc; cases hc) (by unfold sensible; trivial)
    unfold fly at this
    simpa [System.step, System.flying, System.engineOp, List.append_assoc] using this
  | flushed id =>
    have := h.step ha (.flushed id) (by intro c hc; cases hc) (by unfold sensible; trivial)
    unfold fly at this
    simpa [System.step, System.flying, System.engineOp] using this
  | persist due out =>
    have := h.step ha (.persist due out) (by intro c hc; cases hc) (by unfold sensible; trivial)
    unfold fly at this
    simpa [System.step, System.flying, System.engineOp] using this
  | negotiate r a =>
    unfold System.step
    cases hq : s.queue with
    | nil => exact h
    | cons p q =>
      dsimp only
      have : (s.neg.process p r a).outputs.map (·.1) ++ q = s.flying := by
        rw [process_outputs]
        simp [System.flying, hq]
      unfold System.flying at this ⊢
      dsimp only
      rw [this]
      exact h
  | deliver ok =>
    unfold System.step
    cases ho : s.neg.outputs with
    | nil =>
      simp only [System.engineOp, ho, Option.elim]
      simpa [System.flying, ho] using h
    | cons x rest =>
      obtain ⟨p, b⟩ := x
      have hfl : s.flying = p :: (rest.map (·.1) ++ s.queue) := by simp [System.flying, ho]
      cases b with
      | true =>
        have := h.step ha (.approved p ok) (by intro c hc; cases hc) (by unfold sensible; simp [hfl])
        unfold fly at this
        dsimp only at this
        rw [hfl, List.erase_cons_head] at this
        simp only [System.engineOp, ho, Option.elim]
        exact this
      | false =>
        have := h.step ha (.rejected p) (by intro c hc; cases hc) (by unfold sensible; simp [hfl])
        unfold fly at this
        dsimp only at this
        rw [hfl, List.erase_cons_head] at this
        simp only [System.engineOp, ho, Option.elim]
        exact this

/-- C39.  For the engine together with its negotiator, over all histories in which an identifier stands for one flush
action and updates leave each pending action one of its buffers: no two negotiations for the same action go on at a time,
and each action in negotiation is pending.  Missing: updates that take all buffers away from a pending action. -/
theorem C39_system_partial (ops : List SysOp) (ha : OneAction (ops.map SysOp.configs).flatten) (hs : Gentle {} ops) :
    (((({} : System).run ops).flying).map (·.id)).Nodup ∧
      ∀ p ∈ (({} : System).run ops).flying, ∃ q ∈ (({} : System).run ops).engine.pending, q.id = p.id := by
  have key : ∀ (ops : List SysOp) (cs : List Config) (s : System), OneAction cs → (∀ op ∈ ops, ∀ c ∈ op.configs, c ∈ cs) →
      Gentle s ops → Once cs s.engine s.flying → Once cs (s.run ops).engine (s.run ops).flying := by
    intro ops
    induction ops with
    | nil => intro cs s _ _ _ h; exact h
    | cons op ops ih =>
      intro cs s ha hc hg h
      exact ih cs (s.step op) ha (fun x hx => hc x (List.mem_cons_of_mem _ hx)) hg.2
        (system_flying s op hg.1 (hc op List.mem_cons_self) ha h)
  have h := key ops _ {} ha
    (fun op hop c hc => List.mem_flatten.2 ⟨_, List.mem_map.2 ⟨op, hop, rfl⟩, hc⟩) hs
    ⟨Good.init, by simp, (by intro s hs; cases hs), by simp [System.flying],
      (by intro p hp; simp [System.flying] at hp)⟩
  exact ⟨h.flying, h.within⟩

/-! ### C65: every pending action is in negotiation -/

/-- The channel to the negotiator has room, and updates leave each pending action all of its buffers. -/
def System.roomy (s : System) : SysOp → Prop
  | .start _ _ oks _ => ∀ b ∈ oks, b = true
  | .log _ _ v => ∀ b ∈ v.pendingOks, b = true
  | .update ec => ∀ p ∈ s.engine.pending, p.triggers ≠ [] ∧ ∀ t ∈ p.triggers, t ∈ ec.triggers
  | _ => True

def Roomy : System → List SysOp → Prop
  | _, [] => True
  | s, op :: ops => s.roomy op ∧ Roomy (s.step op) ops

theorem roomy_gentle {s : System} {op : SysOp} (h : s.roomy op) : s.gentle op := by
  cases op with
  | update ec =>
    intro p hp
    obtain ⟨h1, h2⟩ := h p hp
    obtain ⟨t, ht⟩ := List.exists_mem_of_ne_nil _ h1
    exact ⟨t, ht, h2 t ht⟩
  | _ => trivial

theorem accepted_all {α : Type} : ∀ (l : List α) (oks : List Bool), (∀ b ∈ oks, b = true) → accepted l oks = l
  | [], _, _ => by simp [accepted]
  | a :: l, [], _ => by rw [accepted, accepted_all l [] (by simp)]
  | a :: l, ok :: oks, h => by
    rw [accepted, if_pos (h ok List.mem_cons_self), accepted_all l oks fun b hb => h b (List.mem_cons_of_mem _ hb)]

theorem system_pending {cs : List Config} (s : System) (op : SysOp) (hs : s.roomy op) (h : Once cs s.engine s.flying)
    (hp : ∀ p, p ∈ s.engine.pending ↔ p ∈ s.flying) :
    ∀ p, p ∈ (s.step op).engine.pending ↔ p ∈ (s.step op).flying := by
  cases op with
  | start limit readable oks ec =>
    intro p
    have : p ∈ (s.engine.start limit readable oks ec).pending ↔ p ∈ (s.engine.start limit readable oks ec).sent := by
      obtain ⟨_, _, _, h1 | h1⟩ := start_other s.engine limit readable oks ec
      · rw [h1.2.1, h1.2.2.2]
      · obtain ⟨d, _, h2, _, h4⟩ := h1
        rw [h4, h2, accepted_all _ _ hs]
    simpa [System.step, System.flying, System.engineOp, Engine.apply] using this
  | update ec =>
    intro p
    have hs : ∀ q ∈ s.engine.pending, q.triggers ≠ [] ∧ ∀ t ∈ q.triggers, t ∈ ec.triggers := hs
    have hstd : p ∈ stdPending ec.triggers s.engine.pending ↔ p ∈ s.engine.pending := by
      unfold stdPending
      rw [mem_addNew, List.mem_filterMap]
      have hsame : ∀ q ∈ s.engine.pending,
          (if q.triggers.any (· ∈ ec.triggers) then some { q with triggers := q.triggers.filter (· ∈ ec.triggers) } else none)
            = some q := by
        intro q hq
        obtain ⟨h1, h2⟩ := hs q hq
        obtain ⟨t, ht⟩ := List.exists_mem_of_ne_nil _ h1
        rw [if_pos (List.any_eq_true.2 ⟨t, ht, by simpa using h2 t ht⟩)]
        congr 1
        have : q.triggers.filter (· ∈ ec.triggers) = q.triggers := by
          apply List.filter_eq_self.2
          intro t ht
          simpa using h2 t ht
        rw [this]
      constructor
      · rintro (h | ⟨q, hq, he⟩)
        · cases h
        · rw [hsame q hq] at he
          cases he
          exact hq
      · intro h
        exact .inr ⟨p, h, hsame p h⟩
    have : (s.engine.update ec).pending = stdPending ec.triggers s.engine.pending := by
      obtain ⟨_, _, _, _, h⟩ := update_other s.engine ec
      rw [h]
    show p ∈ (s.engine.update ec).pending ↔ p ∈ s.flying
    rw [this, hstd, hp]
  | log l dests v =>
    intro p
    have hs : ∀ b ∈ v.pendingOks, b = true := hs
    obtain ⟨w, n, d, he⟩ := enter_other s.engine l.session
    obtain ⟨new, _, h1, h2, _⟩ := handle_new (s.engine.enter l.session) l dests v
    have h1' : (s.engine.processLog l dests v).1.pending = addNew s.engine.pending new := by
      show ((s.engine.enter l.session).handle l dests v).1.pending = _
      rw [h1, he]
    have h2' : (s.engine.processLog l dests v).1.sent = s.engine.sent ++ new := by
      show ((s.engine.enter l.session).handle l dests v).1.sent = _
      rw [h2, he, accepted_all _ _ hs]
    show p ∈ (s.engine.processLog l dests v).1.pending ↔
      p ∈ s.neg.outputs.map (·.1) ++ (s.queue ++ (s.engine.processLog l dests v).1.sent.drop s.engine.sent.length)
    rw [h1', h2', List.drop_left, mem_addNew, hp, System.flying, ← List.append_assoc, List.mem_append (t := new)]
  | flushed id => exact hp
  | persist due out =>
    have : (s.engine.persist due out).pending = s.engine.pending := by
      unfold Engine.persist
      split <;> rfl
    intro p
    show p ∈ (s.engine.persist due out).pending ↔ p ∈ s.flying
    rw [this, hp]
  | negotiate r a =>
    unfold System.step
    cases hq : s.queue with
    | nil => exact hp
    | cons p q =>
      dsimp only
      have : (s.neg.process p r a).outputs.map (·.1) ++ q = s.flying := by
        rw [process_outputs]
        simp [System.flying, hq]
      intro x
      unfold System.flying at this ⊢
      dsimp only
      rw [this]
      exact hp x
  | deliver ok =>
    unfold System.step
    cases ho : s.neg.outputs with
    | nil =>
      simp only [System.engineOp, ho, Option.elim]
      simpa [System.flying, ho] using hp
    | cons x rest =>
      obtain ⟨p, b⟩ := x
      have hfl : s.flying = p :: (rest.map (·.1) ++ s.queue) := by simp [System.flying, ho]
      have hn : p ∉ rest.map (·.1) ++ s.queue := by
        have := h.flying
        rw [hfl, List.map_cons, List.nodup_cons] at this
        intro hm
        exact this.1 (List.mem_map.2 ⟨p, hm, rfl⟩)
      have key : ∀ q, q ∈ s.engine.pending.filter (· ≠ p) ↔ q ∈ rest.map (·.1) ++ s.queue := by
        intro q
        rw [List.mem_filter, hp, hfl, List.mem_cons]
        simp only [ne_eq, decide_not, Bool.not_eq_true', decide_eq_false_iff_not]
        constructor
        · rintro ⟨h1 | h1, h2⟩
          · exact absurd h1 h2
          · exact h1
        · intro h1
          exact ⟨.inr h1, fun h2 => hn (h2 ▸ h1)⟩
      cases b with
      | true =>
        simp only [System.engineOp, ho, Option.elim]
        intro q
        have : (s.engine.approved p ok).pending = s.engine.pending.filter (· ≠ p) := by
          unfold Engine.approved
          dsimp only
          split
          · split <;> rfl
          · rfl
        show q ∈ (s.engine.approved p ok).pending ↔ q ∈ rest.map (·.1) ++ s.queue
        rw [this]
        exact key q
      | false =>
        simp only [System.engineOp, ho, Option.elim]
        exact key

/-- C65.  Over all histories in which an identifier stands for one flush action, the channel to the negotiator always has
room, and updates leave pending actions their buffers: the pending actions are exactly those in negotiation, so each will
be answered.  Missing: a full channel and updates that change the buffers, see the violations below. -/
theorem C65_partial (ops : List SysOp) (ha : OneAction (ops.map SysOp.configs).flatten) (hs : Roomy {} ops) :
    ∀ p, p ∈ (({} : System).run ops).engine.pending ↔ p ∈ (({} : System).run ops).flying := by
  have key : ∀ (ops : List SysOp) (cs : List Config) (s : System), OneAction cs → (∀ op ∈ ops, ∀ c ∈ op.configs, c ∈ cs) →
      Roomy s ops → Once cs s.engine s.flying → (∀ p, p ∈ s.engine.pending ↔ p ∈ s.flying) →
      ∀ p, p ∈ (s.run ops).engine.pending ↔ p ∈ (s.run ops).flying := by
    intro ops
    induction ops with
    | nil => intro cs s _ _ _ _ h; exact h
    | cons op ops ih =>
      intro cs s ha hc hg h hp
      exact ih cs (s.step op) ha (fun x hx => hc x (List.mem_cons_of_mem _ hx)) hg.2
        (system_flying s op (roomy_gentle hg.1) (hc op List.mem_cons_self) ha h) (system_pending s op hg.1 h hp)
  exact key ops _ {} ha
    (fun op hop c hc => List.mem_flatten.2 ⟨_, List.mem_map.2 ⟨op, hop, rfl⟩, hc⟩) hs
    ⟨Good.init, by simp, (by intro s hs; cases hs), by simp [System.flying],
      (by intro p hp; simp [System.flying] at hp)⟩ (by simp [System.flying])

/-- The channel is full when an action is triggered: the action is pending, nobody negotiates it, and no later trigger of it
does anything. -/
theorem C65_full_violated :
    let s := ({} : System).run [.start 9 true [] ⟨[Ex.again], ["t", "u"], []⟩,
      .log { session := "s", time := 0, hits := [1] } [] { pendingOks := [false] }, .log { session := "s", time := 0, hits := [1] } [] {}]
    s.engine.pending = [Ex.both] ∧ s.flying = [] := by decide +kernel

/-- An update takes a buffer away while the action is in negotiation: the answer no longer fits. -/
theorem C65_narrowed_violated :
    let s := ({} : System).run [.start 9 true [] ⟨[Ex.again], ["t", "u"], []⟩, .log { session := "s", time := 0, hits := [1] } [] {},
      .update ⟨[Ex.again], ["t"], []⟩, .negotiate 0 .yes, .deliver true]
    s.engine.pending.map (·.id) = ["fl"] ∧ s.flying = [] := by decide +kernel

/-! ### C64: buffers are flushed with the server's consent only -/

/-- What is delivered, and what was requested, has the server's consent. -/
structure Consent (s : System) : Prop where
  outputs : ∀ p, (p, true) ∈ s.neg.outputs → p ∈ s.consents
  requests : ∀ x ∈ s.engine.requests, ∃ p ∈ s.consents, p.id = x.1 ∧ p.triggers = x.2

theorem apply_requests (e : Engine) (op : Op) :
    ∀ x ∈ (e.apply op).requests, x ∈ e.requests ∨ ∃ p ok, op = .approved p ok ∧ x = (p.id, p.triggers) := by
  intro x hx
  cases op with
  | start limit readable oks ec =>
    have : (e.start limit readable oks ec).requests = [] := by
      unfold Engine.start
      dsimp only
      split
      · obtain ⟨c, n, w, h⟩ := addWorkflows_other ec.configs _ _
        dsimp only
        rw [h]
      · obtain ⟨c, n, w, h⟩ := addWorkflows_other ec.configs _ _
        rw [h]
    have hx : x ∈ (e.start limit readable oks ec).requests := hx
    rw [this] at hx
    cases hx
  | update ec =>
    have : (e.update ec).requests = e.requests := by
      obtain ⟨w, n, d, c, h⟩ := update_other e ec
      rw [h]
    exact .inl (this ▸ hx)
  | log l dests v =>
    refine .inl ?_
    have : (e.processLog l dests v).1.requests = e.requests := by
      obtain ⟨w, n, d, he⟩ := enter_other e l.session
      unfold Engine.processLog Engine.handle
      split
      · rw [he]
      · dsimp only; rw [he]
    exact this ▸ hx
  | approved p ok =>
    unfold Engine.apply Engine.approved at hx
    dsimp only at hx
    split at hx
    · split at hx
      · rcases List.mem_append.1 hx with hx | hx
        · exact .inl hx
        · exact .inr ⟨p, ok, rfl, List.mem_singleton.1 hx⟩
      · exact .inl hx
    · exact .inl hx
  | rejected p => exact .inl hx
  | flushed id => exact .inl hx
  | persist due out =>
    refine .inl ?_
    have : (e.persist due out).requests = e.requests := by
      unfold Engine.persist; split <;> rfl
    exact this ▸ hx

theorem Consent.step {s : System} (h : Consent s) (op : SysOp) : Consent (s.step op) := by
  have plain : ∀ (o : Op), (∀ p ok, o ≠ .approved p ok) →
      ∀ x ∈ (s.engine.apply o).requests, ∃ p ∈ s.consents, p.id = x.1 ∧ p.triggers = x.2 := by
    intro o ho x hx
    rcases apply_requests s.engine o x hx with hx | ⟨p, ok, rfl, _⟩
    · exact h.requests x hx
    · exact absurd rfl (ho p ok)
  cases op with
  | start limit readable oks ec =>
    exact ⟨(by intro p hp; cases hp), plain (.start limit readable oks ec) (by simp)⟩
  | update ec => exact ⟨h.outputs, plain (.update ec) (by simp)⟩
  | log l dests v => exact ⟨h.outputs, plain (.log l dests v) (by simp)⟩
  | flushed id => exact ⟨h.outputs, plain (.flushed id) (by simp)⟩
  | persist due out => exact ⟨h.outputs, plain (.persist due out) (by simp)⟩
  | negotiate r a =>
    unfold System.step
    cases hq : s.queue with
    | nil => exact h
    | cons p q =>
      dsimp only
      have hsub : ∀ x ∈ s.consents, x ∈ (if p.id ∉ s.neg.rejected ∧ a = .yes then s.consents ++ [p] else s.consents) := by
        intro x hx
        split
        · exact List.mem_append_left _ hx
        · exact hx
      refine ⟨?_, ?_⟩
      · intro x hx
        dsimp only at hx ⊢
        rw [process_outputs] at hx
        rcases List.mem_append.1 hx with hx | hx
        · exact hsub x (h.outputs x hx)
        · have hx := List.mem_singleton.1 hx
          have h1 : x = p := congrArg Prod.fst hx
          have h2 : true = decide (p.id ∉ s.neg.rejected ∧ a = .yes) := congrArg Prod.snd hx
          rw [h1, if_pos (of_decide_eq_true h2.symm)]
          exact List.mem_append_right _ List.mem_cons_self
      · intro x hx
        obtain ⟨p', hp, hx⟩ := h.requests x hx
        exact ⟨p', hsub p' hp, hx⟩
  | deliver ok =>
    unfold System.step
    refine ⟨fun p hp => h.outputs p (List.mem_of_mem_drop hp), ?_⟩
    dsimp only
    cases ho : s.neg.outputs with
    | nil =>
      simp only [System.engineOp, ho, Option.elim]
      exact h.requests
    | cons x rest =>
      obtain ⟨p, b⟩ := x
      cases b with
      | true =>
        simp only [System.engineOp, ho, Option.elim]
        intro x hx
        rcases apply_requests s.engine _ x hx with hx | ⟨p', ok', he, rfl⟩
        · exact h.requests x hx
        · cases he
          exact ⟨p, h.outputs p (by rw [ho]; exact List.mem_cons_self), rfl, rfl⟩
      | false =>
        simp only [System.engineOp, ho, Option.elim]
        exact plain (.rejected p) (by simp)

/-- C64.  Over all histories: every flush that the engine requests of the buffers is for an action for which the server
agreed to the upload, and for the buffers of that action. -/
theorem C64_consent (ops : List SysOp) :
    ∀ x ∈ (({} : System).run ops).engine.requests,
      ∃ p ∈ (({} : System).run ops).consents, p.id = x.1 ∧ p.triggers = x.2 := by
  have key : ∀ (ops : List SysOp) (s : System), Consent s → Consent (s.run ops) := by
    intro ops
    induction ops with
    | nil => intro s h; exact h
    | cons op ops ih => intro s h; exact ih _ (h.step op)
  exact (key ops {} ⟨(by intro p hp; cases hp), (by intro x hx; cases hx)⟩).requests

/-- A sequence of actions through the negotiator. -/
def Negotiator.run (n : Negotiator) (l : List (Pending × Nat × Answer)) : Negotiator :=
  l.foldl (fun n x => n.process x.1 x.2.1 x.2.2) n

theorem process_rejected (n : Negotiator) (p : Pending) (r : Nat) (a : Answer) :
    ∀ i ∈ n.rejected, i ∈ (n.process p r a).rejected := by
  intro i hi
  unfold Negotiator.process
  split
  · exact hi
  · cases a
    · exact hi
    · exact List.mem_append_left _ hi
    · exact hi

/-- C64.  Once the server has refused an action, no intent for it is sent any more, and every later instance of it is
rejected at once. -/
theorem C64_refused (n : Negotiator) (p : Pending) (r : Nat) (l : List (Pending × Nat × Answer))
    (hn : p.id ∉ n.rejected) :
    ∃ m, ((n.process p r .no).run l).intents = (n.process p r .no).intents ++ m ∧ (∀ i ∈ m, i.action ≠ p.id) ∧
      ∃ out, ((n.process p r .no).run l).outputs = (n.process p r .no).outputs ++ out ∧ out.map (·.1) = l.map (·.1) ∧
        ∀ x ∈ out, x.1.id = p.id → x.2 = false := by
  have key : ∀ (l : List (Pending × Nat × Answer)) (n : Negotiator), p.id ∈ n.rejected →
      ∃ m, (n.run l).intents = n.intents ++ m ∧ (∀ i ∈ m, i.action ≠ p.id) ∧
        ∃ out, (n.run l).outputs = n.outputs ++ out ∧ out.map (·.1) = l.map (·.1) ∧
          ∀ x ∈ out, x.1.id = p.id → x.2 = false := by
    intro l
    induction l with
    | nil => intro n _; exact ⟨[], by simp [Negotiator.run], by simp, [], by simp [Negotiator.run], rfl, by simp⟩
    | cons x l ih =>
      intro n hp
      obtain ⟨q, r, a⟩ := x
      obtain ⟨m, h1, h2, out, h3, h4, h5⟩ := ih (n.process q r a) (process_rejected n q r a _ hp)
      have hm : ∃ m', (n.process q r a).intents = n.intents ++ m' ∧ ∀ i ∈ m', i.action ≠ p.id := by
        unfold Negotiator.process
        split
        · exact ⟨[], by simp, by simp⟩
        · rename_i hq
          have hne : q.id ≠ p.id := fun h => hq (h ▸ hp)
          have hrep : ∀ k, ∀ i ∈ List.replicate k q.intent, i.action ≠ p.id := by
            intro k i hi
            rw [(List.mem_replicate.1 hi).2]
            exact hne
          cases a
          · exact ⟨_, rfl, hrep _⟩
          · exact ⟨_, rfl, hrep _⟩
          · exact ⟨_, rfl, hrep _⟩
      obtain ⟨m', g1, g2⟩ := hm
      refine ⟨m' ++ m, ?_, ?_, (q, decide (q.id ∉ n.rejected ∧ a = .yes)) :: out, ?_, ?_, ?_⟩
      · show ((n.process q r a).run l).intents = _
        rw [h1, g1, List.append_assoc]
      · intro i hi
        rcases List.mem_append.1 hi with hi | hi
        · exact g2 i hi
        · exact h2 i hi
      · show ((n.process q r a).run l).outputs = _
        rw [h3, process_outputs]
        simp
      · simp [h4]
      · intro x hx hid
        rcases List.mem_cons.1 hx with rfl | hx
        · have hid : q.id = p.id := hid
          simp [hid, hp]
        · exact h5 x hx hid
  refine key l _ ?_
  unfold Negotiator.process
  rw [if_neg hn]
  exact List.mem_append_right _ List.mem_cons_self

/-- C64.  Every action is answered once, in order, and with yes exactly if the server was asked about it and agreed. -/
theorem C64_answered (n : Negotiator) (p : Pending) (r : Nat) (a : Answer) :
    ∃ b, (n.process p r a).outputs = n.outputs ++ [(p, b)] ∧
      (b = true ↔ a = .yes ∧ (n.process p r a).intents = n.intents ++ List.replicate (r + 1) p.intent) := by
  refine ⟨_, process_outputs n p r a, ?_⟩
  rw [decide_eq_true_iff]
  unfold Negotiator.process
  constructor
  · rintro ⟨h, rfl⟩
    rw [if_neg h]
    exact ⟨rfl, rfl⟩
  · rintro ⟨rfl, h⟩
    refine ⟨?_, rfl⟩
    intro hp
    rw [if_pos hp] at h
    have := congrArg List.length h
    simp at this

/-- Refused once; an error is not remembered, a refusal is. -/
example : (({} : Negotiator).run [(Ex.both, 1, .closed), (Ex.both, 0, .no), (Ex.both, 0, .yes)]) =
    ⟨["fl"], [⟨"fl", "t"⟩, ⟨"fl", "t"⟩], [(Ex.both, false), (Ex.both, false), (Ex.both, false)]⟩ := by decide +kernel

namespace Ex
/-- triggered, negotiated, approved, flushed -/
def consented : List SysOp :=
  [.start 9 true [] ⟨[again], ["t", "u"], []⟩, .log { session := "s", time := 0, hits := [1] } [] {}, .negotiate 2 .yes, .deliver true,
    .log { session := "s", time := 0, hits := [1] } [] {}]
end Ex
example : (({} : System).run Ex.consented).engine.requests = [("fl", ["t", "u"])] ∧
    (({} : System).run Ex.consented).flying = [Ex.both] := by decide +kernel
example : Gentle {} Ex.consented := by
  refine ⟨trivial, trivial, trivial, trivial, trivial, trivial⟩

end Verif.Wf
