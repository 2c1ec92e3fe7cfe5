import Verif.Workflow.SessionProps

/-!
C38: streaming after a flush.

Over all histories: `C38_destinations` says exactly which buffers a log goes to, `C38_not_lost` that it goes to at least
one that exists if it was meant for one, `C38_counts` and `C38_ends` that logs are counted and streaming ends,
`C38_lifetime` for how many logs an action streams.
-/
namespace Verif.Wf

theorem mem_addNew {α : Type} [DecidableEq α] {x : α} : ∀ {l s : List α}, x ∈ addNew s l ↔ x ∈ s ∨ x ∈ l
  | [], s => by simp [addNew]
  | a :: l, s => by
    unfold addNew
    rw [mem_addNew]
    by_cases h : a ∈ s
    · rw [if_pos h]
      constructor
      · rintro (h' | h')
        · exact .inl h'
        · exact .inr (List.mem_cons_of_mem _ h')
      · rintro (h' | h')
        · exact .inl h'
        · rcases List.mem_cons.1 h' with rfl | h'
          · exact .inl h
          · exact .inr h'
    · rw [if_neg h]
      simp [or_assoc]

theorem mem_gather {x : String} : ∀ {l : List Stream} {r : List String},
    x ∈ l.foldl (fun r s => addNew r s.dests) r ↔ x ∈ r ∨ ∃ s ∈ l, x ∈ s.dests
  | [], r => by simp
  | s :: l, r => by
    simp only [List.foldl_cons]
    rw [mem_gather, mem_addNew]
    simp [or_assoc]

/-- The streaming actions in force when a log of this session is processed: not those that are over because they
streamed enough logs or belong to another session, unless their flush is still going on. -/
def inForce (e : Engine) (session : String) (s : Stream) : Prop :=
  s ∈ e.streams ∧ (lookup s.id e.flushes = some false ∨
    s.session = session ∧ ∀ m, s.max = some m → s.count < m)

theorem mem_retain {e : Engine} {session : String} {s : Stream} :
    s ∈ retainStreams session (e.streams.map fun s => (s, (lookup s.id e.flushes).getD true)) ↔ inForce e session s := by
  unfold retainStreams inForce
  simp only [List.mem_map, List.mem_filter]
  constructor
  · rintro ⟨x, ⟨⟨s', hs', rfl⟩, hk⟩, rfl⟩
    refine ⟨hs', ?_⟩
    dsimp only at hk ⊢
    cases hl : lookup s'.id e.flushes with
    | some b =>
      cases b with
      | false => exact .inl rfl
      | true =>
        right
        simp only [hl, Option.getD_some, Bool.and_true, Bool.not_eq_true', Bool.or_eq_false_iff,
          decide_eq_false_iff_not, ne_eq, Decidable.not_not] at hk
        refine ⟨hk.2, ?_⟩
        intro m hm
        have := hk.1
        unfold Stream.full at this
        rw [hm] at this
        simpa using this
    | none =>
      right
      simp only [hl, Option.getD_none, Bool.and_true, Bool.not_eq_true', Bool.or_eq_false_iff,
        decide_eq_false_iff_not, ne_eq, Decidable.not_not] at hk
      refine ⟨hk.2, ?_⟩
      intro m hm
      have := hk.1
      unfold Stream.full at this
      rw [hm] at this
      simpa using this
  · rintro ⟨hs, h⟩
    refine ⟨(s, (lookup s.id e.flushes).getD true), ⟨⟨s, hs, rfl⟩, ?_⟩, rfl⟩
    rcases h with h | ⟨h1, h2⟩
    · simp [h]
    · have : s.full = false := by
        unfold Stream.full
        cases hm : s.max with
        | none => rfl
        | some m => simpa using h2 m hm
      simp [this, h1]

theorem processLog_dests (e : Engine) (log : Log) (dests : List String) (v : LogEnv) (hw : e.workflows ≠ []) :
    (e.processLog log dests v).2.dests = reroute e.triggers e.conts dests
      (retainStreams log.session (e.streams.map fun s => (s, (lookup s.id e.flushes).getD true))) ∧
    (e.processLog log dests v).1.streams = countStreams dests
      (retainStreams log.session (e.streams.map fun s => (s, (lookup s.id e.flushes).getD true))) := by
  obtain ⟨w, n, d, he⟩ := enter_other e log.session
  have hwf : (e.enter log.session).workflows.isEmpty = false := by
    unfold Engine.enter
    split
    · simpa using hw
    · split
      · simpa using hw
      · simpa using hw
  unfold Engine.processLog Engine.handle
  rw [hwf]
  simp only [Bool.false_eq_true, if_false]
  rw [he]
  exact ⟨rfl, rfl⟩

/-- C38.  A log goes to exactly these buffers: the destinations of the streaming actions in force of which a source is
among the buffers the log was meant for; and of those buffers the ones that exist and are not a source of an action in
force. -/
theorem C38_destinations (e : Engine) (log : Log) (dests : List String) (v : LogEnv) (hw : e.workflows ≠ [])
    (d : String) :
    d ∈ (e.processLog log dests v).2.dests ↔
      (∃ s, inForce e log.session s ∧ (∃ b ∈ s.sources, b ∈ dests) ∧ d ∈ s.dests) ∨
      (d ∈ dests ∧ (d ∈ e.triggers ∨ d ∈ e.conts) ∧ ¬ ∃ s, inForce e log.session s ∧ d ∈ s.sources) := by
  rw [(processLog_dests e log dests v hw).1]
  unfold reroute
  rw [mem_addNew, mem_gather]
  simp only [List.not_mem_nil, false_or, List.mem_filter, Stream.applies, List.any_eq_true, decide_eq_true_eq,
    Bool.and_eq_true, Bool.or_eq_true, Bool.not_eq_true', mem_retain]
  constructor
  · rintro (⟨s, ⟨h1, h2⟩, h3⟩ | ⟨h1, h2, h3⟩)
    · exact .inl ⟨s, h1, h2, h3⟩
    · right
      refine ⟨h1, h2, ?_⟩
      rintro ⟨s, hs, hd⟩
      have := List.any_eq_false.1 h3 s (mem_retain.2 hs)
      apply this
      simp only [Bool.and_eq_true, List.any_eq_true, decide_eq_true_eq]
      exact ⟨⟨d, hd, h1⟩, hd⟩
  · rintro (⟨s, h1, h2, h3⟩ | ⟨h1, h2, h3⟩)
    · exact .inl ⟨s, ⟨h1, h2⟩, h3⟩
    · right
      refine ⟨h1, h2, ?_⟩
      apply List.any_eq_false.2
      intro s hs hc
      simp only [Bool.and_eq_true, List.any_eq_true, decide_eq_true_eq] at hc
      exact h3 ⟨s, mem_retain.1 hs, hc.2⟩

/-! ### No log is lost -/

/-- Every streaming action has a destination that exists. -/
def Reach (e : Engine) : Prop := ∀ s ∈ e.streams, ∃ d ∈ s.dests, d ∈ e.conts

theorem stdStreams_reach {triggers conts : List String} {l : List Stream} :
    ∀ s ∈ stdStreams triggers conts l, ∃ d ∈ s.dests, d ∈ conts := by
  intro s hs
  unfold stdStreams at hs
  obtain ⟨u, _, hu⟩ := List.mem_filterMap.1 hs
  split at hu
  · cases hu
  · rename_i h
    cases hu
    dsimp only
    simp only [Bool.or_eq_true, not_or, List.isEmpty_iff] at h
    obtain ⟨d, hd⟩ := List.exists_mem_of_ne_nil _ h.2
    exact ⟨d, hd, by simpa using (List.mem_filter.1 hd).2⟩

theorem addWorkflows_other : ∀ (l : List Config) (saved : List Workflow) (e : Engine), ∃ c n w,
    e.addWorkflows saved l = { e with configs := c, count := n, workflows := w }
  | [], _, e => ⟨_, _, _, rfl⟩
  | c :: l, saved, e => by
    unfold Engine.addWorkflows
    split
    · rename_i w _
      obtain ⟨c', n, w', h⟩ := addWorkflows_other l (saved.filter (·.id ≠ c.id)) (e.addWorkflow w c)
      rw [h]
      exact ⟨_, _, _, rfl⟩
    · obtain ⟨c', n, w', h⟩ := addWorkflows_other l saved (e.addWorkflow { id := c.id } c)
      rw [h]
      exact ⟨_, _, _, rfl⟩

theorem start_other (e : Engine) (limit : Nat) (readable : Bool) (oks : List Bool) (ec : EngineCfg) :
    (e.start limit readable oks ec).triggers = ec.triggers ∧ (e.start limit readable oks ec).conts = ec.conts ∧
    (e.start limit readable oks ec).flushes = [] ∧
    (((if readable then e.disk else none) = none ∧ (e.start limit readable oks ec).pending = [] ∧
        (e.start limit readable oks ec).streams = [] ∧ (e.start limit readable oks ec).sent = []) ∨
      ∃ s, (if readable then e.disk else none) = some s ∧
        (e.start limit readable oks ec).pending = stdPending ec.triggers s.pending ∧
        (e.start limit readable oks ec).streams = stdStreams ec.triggers ec.conts s.streams ∧
        (e.start limit readable oks ec).sent = accepted (stdPending ec.triggers s.pending) oks) ∧
    (e.start limit readable oks ec).disk = (if readable then e.disk else none) := by
  unfold Engine.start
  dsimp only
  split
  · rename_i s hs
    obtain ⟨c, n, w, h⟩ := addWorkflows_other ec.configs s.workflows
      { limit := limit, triggers := ec.triggers, conts := ec.conts, disk := if readable then e.disk else none,
        pending := stdPending ec.triggers s.pending, streams := stdStreams ec.triggers ec.conts s.streams,
        session := s.session }
    rw [h]
    exact ⟨rfl, rfl, rfl, .inr ⟨s, hs, rfl, rfl, rfl⟩, rfl⟩
  · rename_i hs
    obtain ⟨c, n, w, h⟩ := addWorkflows_other ec.configs []
      { limit := limit, triggers := ec.triggers, conts := ec.conts, disk := if readable then e.disk else none }
    rw [h]
    exact ⟨rfl, rfl, rfl, .inl ⟨hs, rfl, rfl, rfl⟩, rfl⟩

theorem processLog_streams (e : Engine) (log : Log) (dests : List String) (v : LogEnv) :
    (e.processLog log dests v).1.conts = e.conts ∧ (e.processLog log dests v).1.triggers = e.triggers ∧
    (e.processLog log dests v).1.flushes = e.flushes ∧
    ∀ s ∈ (e.processLog log dests v).1.streams, ∃ u ∈ e.streams, s.id = u.id ∧ s.dests = u.dests ∧
      s.sources = u.sources ∧ s.max = u.max ∧ s.session = u.session := by
  obtain ⟨w, n, d, he⟩ := enter_other e log.session
  by_cases hw : e.workflows = []
  · have hwf : (e.enter log.session).workflows.isEmpty = true := by
      unfold Engine.enter
      split
      · simpa using hw
      · split
        · simpa using hw
        · simpa using hw
    unfold Engine.processLog Engine.handle
    rw [hwf]
    simp only [if_true]
    rw [he]
    refine ⟨rfl, rfl, rfl, ?_⟩
    intro s hs
    exact ⟨s, hs, rfl, rfl, rfl, rfl, rfl⟩
  · have h2 := (processLog_dests e log dests v hw).2
    refine ⟨?_, ?_, ?_, ?_⟩
    · unfold Engine.processLog Engine.handle
      split <;> rw [he]
    · unfold Engine.processLog Engine.handle
      split <;> rw [he]
    · unfold Engine.processLog Engine.handle
      split <;> rw [he]
    · intro s hs
      rw [h2] at hs
      unfold countStreams at hs
      obtain ⟨u, hu, rfl⟩ := List.mem_map.1 hs
      refine ⟨u, (mem_retain.1 hu).1, ?_⟩
      split <;> exact ⟨rfl, rfl, rfl, rfl, rfl⟩

theorem Reach.apply {e : Engine} (h : Reach e) (op : Op) : Reach (e.apply op) := by
  cases op with
  | start limit readable oks ec =>
    obtain ⟨_, h2, _, h3, _⟩ := start_other e limit readable oks ec
    intro s hs
    have hs : s ∈ (e.start limit readable oks ec).streams := hs
    show ∃ d ∈ s.dests, d ∈ (e.start limit readable oks ec).conts
    rw [h2]
    rcases h3 with ⟨_, _, h4, _⟩ | ⟨_, _, _, h4, _⟩
    · rw [h4] at hs; cases hs
    · rw [h4] at hs; exact stdStreams_reach s hs
  | update ec =>
    obtain ⟨c, n, w, d, hu⟩ := update_other e ec
    show Reach (e.update ec)
    rw [hu]
    intro s hs
    exact stdStreams_reach s hs
  | log l dests v =>
    obtain ⟨h1, _, _, h2⟩ := processLog_streams e l dests v
    intro s hs
    obtain ⟨u, hu, _, hd, _⟩ := h2 s hs
    rw [hd]
    show ∃ d ∈ u.dests, d ∈ (e.processLog l dests v).1.conts
    rw [h1]
    exact h u hu
  | approved p ok =>
    have key : (e.approved p ok).conts = e.conts ∧ (e.approved p ok).streams = e.streams ++ (Stream.new p e.conts).toList := by
      unfold Engine.approved
      dsimp only
      split
      · split <;> exact ⟨rfl, rfl⟩
      · exact ⟨rfl, rfl⟩
    intro s hs
    have hs : s ∈ (e.approved p ok).streams := hs
    show ∃ d ∈ s.dests, d ∈ (e.approved p ok).conts
    rw [key.2] at hs
    rw [key.1]
    rcases List.mem_append.1 hs with hs | hs
    · exact h s hs
    · unfold Stream.new at hs
      cases hp : p.streaming with
      | none => rw [hp] at hs; simp at hs
      | some sc =>
        rw [hp] at hs
        dsimp only at hs
        split at hs
        · rename_i hany
          have : s = ⟨p.id, p.session, p.triggers, sc.dests, sc.max, 0⟩ := by simpa using hs
          subst this
          simpa using hany
        · simp at hs
  | rejected p => exact h
  | flushed id => exact h
  | persist due out =>
    show Reach (e.persist due out)
    unfold Engine.persist
    split <;> exact h

theorem reach_run : ∀ (ops : List Op) {e : Engine}, Reach e → Reach (e.run ops)
  | [], _, h => h
  | op :: ops, _, h => by
    unfold Engine.run
    simp only [List.foldl_cons]
    exact reach_run ops (h.apply op)

/-- C38.  Over all histories, no log is lost by rerouting: a log meant for a buffer that exists goes to a buffer that
exists. -/
theorem C38_not_lost (ops : List Op) (log : Log) (dests : List String) (v : LogEnv) (b : String) (hb : b ∈ dests)
    (hx : b ∈ (({} : Engine).run ops).triggers ∨ b ∈ (({} : Engine).run ops).conts) :
    ∃ d ∈ ((({} : Engine).run ops).processLog log dests v).2.dests,
      d ∈ (({} : Engine).run ops).triggers ∨ d ∈ (({} : Engine).run ops).conts := by
  have hr : Reach (({} : Engine).run ops) := reach_run ops (by intro s hs; cases hs)
  generalize ({} : Engine).run ops = e at *
  by_cases hw : e.workflows = []
  · rw [(C36_no_workflow e log dests v hw).2]
    exact ⟨b, hb, hx⟩
  · by_cases hs : ∃ s, inForce e log.session s ∧ b ∈ s.sources
    · obtain ⟨s, h1, h2⟩ := hs
      obtain ⟨d, hd1, hd2⟩ := hr s h1.1
      exact ⟨d, (C38_destinations e log dests v hw d).2 (.inl ⟨s, h1, ⟨b, h2, hb⟩, hd1⟩), .inr hd2⟩
    · exact ⟨b, (C38_destinations e log dests v hw b).2 (.inr ⟨hb, hx, hs⟩), hx⟩

/-! ### The end of streaming -/

/-- C38.  After a log, the streaming actions are those that were in force, each with one more log counted if the log was
meant for one of its sources. -/
theorem C38_counts (e : Engine) (log : Log) (dests : List String) (v : LogEnv) (hw : e.workflows ≠ []) (s : Stream) :
    s ∈ (e.processLog log dests v).1.streams ↔ ∃ u, inForce e log.session u ∧
      s = { u with count := u.count + if ∃ b ∈ u.sources, b ∈ dests then 1 else 0 } := by
  rw [(processLog_dests e log dests v hw).2]
  unfold countStreams
  rw [List.mem_map]
  have key : ∀ u : Stream, (if u.applies dests then { u with count := u.count + 1 } else u) =
      { u with count := u.count + if ∃ b ∈ u.sources, b ∈ dests then 1 else 0 } := by
    intro u
    by_cases h : ∃ b ∈ u.sources, b ∈ dests
    · rw [if_pos (by unfold Stream.applies; simpa using h), if_pos h]
    · rw [if_neg (by unfold Stream.applies; simpa using h), if_neg h]
      rfl
  constructor
  · rintro ⟨u, hu, rfl⟩
    exact ⟨u, mem_retain.1 hu, key u⟩
  · rintro ⟨u, hu, rfl⟩
    exact ⟨u, mem_retain.2 hu, key u⟩

/-- C38.  Unless its flush is still going on, no action streams more logs than configured. -/
theorem C38_ends (e : Engine) (log : Log) (dests : List String) (v : LogEnv) (hw : e.workflows ≠ []) (s : Stream)
    (hs : s ∈ (e.processLog log dests v).1.streams) (hf : lookup s.id e.flushes ≠ some false) (m : Nat)
    (hm : s.max = some m) : s.count ≤ m := by
  obtain ⟨u, ⟨_, hu⟩, rfl⟩ := (C38_counts e log dests v hw s).1 hs
  rcases hu with hu | ⟨_, hu⟩
  · exact absurd hu hf
  · have := hu m hm
    dsimp only
    split <;> omega

/-- The streaming part of a sequence of logs of one session, all flushes being over: which of the actions remain. -/
def streamAll (triggers conts : List String) (session : String) : List Stream → List (List String) → List Stream
  | l, [] => l
  | l, d :: ds =>
    streamAll triggers conts session (processStreams triggers conts (l.map fun s => (s, true)) d session).2.1 ds

/-- How many of the logs are meant for a source of the action. -/
def Stream.streamed (s : Stream) (ds : List (List String)) : Nat := (ds.filter fun d => s.sources.any (· ∈ d)).length

theorem streamed_cons (s : Stream) (d : List String) (ds : List (List String)) :
    s.streamed (d :: ds) = (if s.sources.any (· ∈ d) then 1 else 0) + s.streamed ds := by
  unfold Stream.streamed
  rw [List.filter_cons]
  split <;> simp [Nat.add_comm]

theorem streams_append (triggers conts : List String) (session : String) (d : List String) (a b : List Stream) :
    (processStreams triggers conts ((a ++ b).map fun s => (s, true)) d session).2.1 =
      (processStreams triggers conts (a.map fun s => (s, true)) d session).2.1 ++
        (processStreams triggers conts (b.map fun s => (s, true)) d session).2.1 := by
  simp [processStreams, retainStreams, countStreams]

theorem streamAll_append (triggers conts : List String) (session : String) : ∀ (ds : List (List String))
    (a b : List Stream), streamAll triggers conts session (a ++ b) ds =
      streamAll triggers conts session a ds ++ streamAll triggers conts session b ds
  | [], _, _ => rfl
  | d :: ds, a, b => by
    simp only [streamAll]
    rw [streams_append, streamAll_append triggers conts session ds]

theorem streamAll_nil (triggers conts : List String) (session : String) : ∀ (ds : List (List String)),
    streamAll triggers conts session [] ds = []
  | [] => rfl
  | _ :: ds => streamAll_nil triggers conts session ds

theorem streams_one (triggers conts : List String) (session : String) (d : List String) (s : Stream) :
    (processStreams triggers conts ([s].map fun s => (s, true)) d session).2.1 =
      if s.session = session ∧ ∀ m, s.max = some m → s.count < m then [{ s with count := s.count + s.streamed [d] }]
      else [] := by
  have hap : (if s.applies d then { s with count := s.count + 1 } else s) =
      { s with count := s.count + s.streamed [d] } := by
    unfold Stream.applies Stream.streamed
    rw [List.filter_cons]
    split <;> simp
  simp only [processStreams, retainStreams, countStreams, List.map_cons, List.map_nil, List.filter_cons, List.filter_nil,
    Bool.and_true]
  by_cases h : s.session = session ∧ ∀ m, s.max = some m → s.count < m
  · have hf : s.full = false := by
      unfold Stream.full
      cases hm : s.max with
      | none => rfl
      | some m => simpa using h.2 m hm
    rw [if_pos h, if_pos (by simp [hf, h.1])]
    simp only [List.map_cons, List.map_nil, hap]
  · rw [if_neg h, if_neg]
    · rfl
    · intro hc
      apply h
      simp only [Bool.not_eq_true', Bool.or_eq_false_iff, decide_eq_false_iff_not, ne_eq, Decidable.not_not] at hc
      refine ⟨hc.2, ?_⟩
      intro m hm
      have := hc.1
      unfold Stream.full at this
      rw [hm] at this
      simpa using this

/-- C38.  How long an action streams, all flushes being over.  The actions do not depend on each other.  If `m` logs are
allowed, an action is still there when the log after `ds` arrives exactly if fewer than `m` of `ds` were for its sources:
so the first `m` logs for its sources are streamed, and no other. -/
theorem C38_lifetime (triggers conts : List String) (session : String) (l : List Stream) (ds : List (List String))
    (d : List String) :
    streamAll triggers conts session l (ds ++ [d]) =
      (l.filter fun s => s.session = session ∧ ∀ m, s.max = some m → s.count + s.streamed ds < m).map
        fun s => { s with count := s.count + s.streamed (ds ++ [d]) } := by
  have one : ∀ (ds : List (List String)) (s : Stream), streamAll triggers conts session [s] (ds ++ [d]) =
      if s.session = session ∧ ∀ m, s.max = some m → s.count + s.streamed ds < m then
        [{ s with count := s.count + s.streamed (ds ++ [d]) }] else [] := by
    intro ds
    induction ds with
    | nil =>
      intro s
      exact streams_one triggers conts session d s
    | cons x ds ih =>
      intro s
      simp only [List.cons_append, streamAll]
      rw [streams_one]
      have hx := streamed_cons s x ds
      have hxd := streamed_cons s x (ds ++ [d])
      have h1 : s.streamed [x] = if s.sources.any (· ∈ x) then 1 else 0 := by
        rw [streamed_cons]; simp [Stream.streamed]
      by_cases h : s.session = session ∧ ∀ m, s.max = some m → s.count < m
      · rw [if_pos h, ih]
        dsimp only
        have e1 : ∀ y, ({ s with count := s.count + s.streamed [x] } : Stream).streamed y = s.streamed y := fun _ => rfl
        rw [e1, e1]
        by_cases h' : s.session = session ∧ ∀ m, s.max = some m → s.count + s.streamed [x] + s.streamed ds < m
        · rw [if_pos h', if_pos ⟨h.1, fun m hm => by have := h'.2 m hm; omega⟩]
          rw [show s.count + s.streamed [x] + s.streamed (ds ++ [d]) = s.count + s.streamed (x :: (ds ++ [d])) by omega]
        · rw [if_neg h', if_neg]
          intro hc
          exact h' ⟨h.1, fun m hm => by have := hc.2 m hm; omega⟩
      · rw [if_neg h, streamAll_nil, if_neg]
        intro hc
        exact h ⟨hc.1, fun m hm => by have := hc.2 m hm; omega⟩
  induction l with
  | nil => simp [streamAll_nil]
  | cons s l ih =>
    rw [show s :: l = [s] ++ l from rfl, streamAll_append, ih, one, List.filter_append, List.map_append]
    congr 1
    by_cases h : s.session = session ∧ ∀ m, s.max = some m → s.count + s.streamed ds < m
    · rw [if_pos h, List.filter_cons, if_pos (decide_eq_true h)]; rfl
    · rw [if_neg h, List.filter_cons, if_neg (by rw [decide_eq_false h]; simp)]; rfl

/-! ### Examples -/

/-- Two actions with a common source; "u" is not a source, "z" does not exist. -/
example :
    (processStreams ["t", "u"] ["c", "d"] [(⟨"1", "s", ["t"], ["c"], some 1, 0⟩, true), (⟨"2", "s", ["t"], ["d"], none, 5⟩, true)]
      ["t", "u", "z"] "s") =
      (["c", "d", "u"], [⟨"1", "s", ["t"], ["c"], some 1, 1⟩, ⟨"2", "s", ["t"], ["d"], none, 6⟩], true) := by decide +kernel
example : (({} : Engine).run Ex.busy).triggers = ["t"] ∧
    ((({} : Engine).run Ex.busy).processLog { session := "s", time := 0, hits := [] } ["t"] {}).2.dests = ["c"] := by decide +kernel

/-- While the flush of an action goes on, it streams more logs than configured. -/
theorem C38_flushing :
    let e := ({} : Engine).run [.start 9 true [] ⟨[Ex.flushing], ["t"], ["c"]⟩, Ex.log [1],
      .approved ⟨"fl", "s", ["t"], some ⟨["c"], some 1⟩⟩ true]
    let one := fun e : Engine => (e.processLog { session := "s", time := 0, hits := [] } ["t"] {}).1
    (one (one (one e))).streams = [⟨"fl", "s", ["t"], ["c"], some 1, 3⟩] := by decide +kernel

end Verif.Wf
