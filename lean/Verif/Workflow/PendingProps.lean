import Verif.Workflow.StreamProps

/-!
C39: a flush action is being negotiated at most once at a time.  C63: an answer ends the negotiation.

Both fail after a configuration update that takes buffers away from an action in negotiation: `C39_readded_violated`,
`C63_narrowed_violated`.
-/
namespace Verif.Wf

/-- The flush actions a configuration contains. -/
def Config.flushes (c : Config) : List FlushCfg :=
  c.states.flatMap fun s => s.transitions.flatMap fun tr => tr.actions.filterMap fun a => match a with
    | .flush f => some f
    | _ => none

/-- An identifier stands for one flush action. -/
def OneAction (cs : List Config) : Prop :=
  ∀ c ∈ cs, ∀ c' ∈ cs, ∀ a ∈ c.flushes, ∀ a' ∈ c'.flushes, a.id = a'.id → a = a'

/-! ### Triggered actions are configured -/

theorem trigger_flush {a : FlushCfg} : ∀ {l : List Action} {s : Sankeys}, Trig.flush a ∈ (trigger s l).1 →
    Action.flush a ∈ l
  | [], _, h => by simp [trigger] at h
  | .flush b :: l, s, h => by
    simp only [trigger] at h
    rcases List.mem_cons.1 h with h | h
    · cases h; exact List.mem_cons_self
    · exact List.mem_cons_of_mem _ (trigger_flush h)
  | .metric b :: l, s, h => by
    simp only [trigger] at h
    rcases List.mem_cons.1 h with h | h
    · cases h
    · exact List.mem_cons_of_mem _ (trigger_flush h)
  | .screenshot b :: l, s, h => by
    simp only [trigger] at h
    rcases List.mem_cons.1 h with h | h
    · cases h
    · exact List.mem_cons_of_mem _ (trigger_flush h)
  | .sankey b :: l, s, h => by
    simp only [trigger] at h
    split at h
    · exact List.mem_cons_of_mem _ (trigger_flush h)
    · rcases List.mem_cons.1 h with h | h
      · cases h
      · exact List.mem_cons_of_mem _ (trigger_flush h)

theorem scan_flush {c : Config} {s : Sankeys} {log : Log} {a : FlushCfg} : ∀ {trs : List Transition} {ns : List Nat},
    Trig.flush a ∈ (scan c s log trs ns).2.actions → ∃ tr ∈ trs, Action.flush a ∈ tr.actions
  | [], ns, h => by simp [scan] at h
  | tr :: trs, [], h => by simp [scan] at h
  | tr :: trs, n :: ns, h => by
    have ih := scan_flush (c := c) (s := s) (log := log) (a := a) (trs := trs) (ns := ns)
    have lift : (∃ tr ∈ trs, Action.flush a ∈ tr.actions) → ∃ x ∈ tr :: trs, Action.flush a ∈ x.actions := by
      rintro ⟨x, hx, h⟩
      exact ⟨x, List.mem_cons_of_mem _ hx, h⟩
    unfold scan at h
    split at h
    · exact lift (ih h)
    · split at h
      · split at h
        · rcases List.mem_append.1 h with h | h
          · exact ⟨tr, List.mem_cons_self, trigger_flush h⟩
          · exact lift (ih h)
        · exact lift (ih h)
      · exact lift (ih h)

theorem mem_flushes {c : Config} {i : Nat} {tr : Transition} {a : FlushCfg} (h1 : tr ∈ c.transitions i)
    (h2 : Action.flush a ∈ tr.actions) : a ∈ c.flushes := by
  unfold Config.transitions at h1
  split at h1
  · rename_i s hs
    unfold Config.flushes
    exact List.mem_flatMap.2 ⟨s, List.mem_of_getElem? hs, List.mem_flatMap.2 ⟨tr, h1, List.mem_filterMap.2 ⟨_, h2, rfl⟩⟩⟩
  · cases h1

theorem run_flush {c : Config} {r : Run} {log : Log} {a : FlushCfg} (h : Trig.flush a ∈ (r.process c log).2.actions) :
    a ∈ c.flushes := by
  by_cases hs : (r.process c log).2.state = .stopped
  · rw [C35_stopped c r log hs] at h
    cases h
  · rw [(Run.process_spec hs).2.1] at h
    obtain ⟨t, _, ht⟩ := List.mem_flatMap.1 h
    obtain ⟨tr, h1, h2⟩ := scan_flush ht
    exact mem_flushes h1 h2

theorem exclusive_actions (a : WfAcc) (c : Config) (log : Log) (n : Nat) : (a.exclusive c log n).actions = a.actions := by
  unfold WfAcc.exclusive
  split
  · split
    · split <;> rfl
    · rfl
  · rfl

theorem loop_flush {c : Config} {log : Log} {limit : Nat} {init : WfAcc} (h0 : init.actions = []) {a : FlushCfg} :
    ∀ (rs : List Run) (i : Nat), Trig.flush a ∈ (loop c log limit init i rs).actions → a ∈ c.flushes
  | [], _, h => by
    have : Trig.flush a ∈ init.actions := h
    rw [h0] at this
    cases this
  | r :: rs, i, h => by
    have ih := loop_flush (c := c) (log := log) (limit := limit) h0 (a := a) rs (i + 1)
    unfold loop at h
    generalize loop c log limit init (i + 1) rs = acc at ih h
    unfold WfAcc.visit at h
    have key : Trig.flush a ∈ (acc.incorporate (r.process c log).2).actions → a ∈ c.flushes := by
      intro h
      rcases List.mem_append.1 h with h | h
      · exact ih h
      · exact run_flush h
    split at h
    · exact ih h
    · split at h
      · rw [exclusive_actions, (settle_actions _ _ _ _).1] at h
        exact key h
      · rw [(settle_actions _ _ _ _).1] at h
        exact key h

theorem all_flush {limit : Nat} {log : Log} {a : FlushCfg} : ∀ (l : List (Workflow × Config)) (count : Nat),
    Trig.flush a ∈ (processAll limit log count l).2.2.1 → ∃ x ∈ l, a ∈ x.2.flushes
  | [], _, h => by simp [processAll] at h
  | (w, c) :: l, count, h => by
    unfold processAll at h
    dsimp only at h
    rcases List.mem_append.1 h with h | h
    · exact ⟨(w, c), List.mem_cons_self, loop_flush rfl _ 0 h⟩
    · obtain ⟨x, hx, hf⟩ := all_flush l _ h
      exact ⟨x, List.mem_cons_of_mem _ hx, hf⟩

theorem mem_flushActions {l : List Trig} {a : FlushCfg} (h : a ∈ flushActions l) : Trig.flush a ∈ l := by
  unfold flushActions at h
  rcases mem_addNew.1 h with h | h
  · cases h
  · obtain ⟨t, ht, he⟩ := List.mem_filterMap.1 h
    cases t with
    | flush b => simp only [Option.some.injEq] at he; subst he; exact ht
    | metric b => simp at he
    | sankey b q => simp at he
    | screenshot b => simp at he

/-! ### New negotiations -/

theorem pending_new {a : FlushCfg} {session : String} {t c : List String} {p : Pending}
    (h : Pending.new a session t c = some p) : p.id = a.id ∧ p.session = session := by
  unfold Pending.new at h
  generalize (if a.buffers.isEmpty then t else a.buffers.filter (· ∈ t)) = b at h
  cases b with
  | nil => cases h
  | cons x l => cases h; exact ⟨rfl, rfl⟩

theorem nodup_ids {l : List Pending} (h : l.Nodup) (hi : ∀ p ∈ l, ∀ q ∈ l, p.id = q.id → p = q) :
    (l.map (·.id)).Nodup := by
  induction l with
  | nil => simp
  | cons a l ih =>
    rw [List.nodup_cons] at h
    rw [List.map_cons, List.nodup_cons]
    refine ⟨?_, ih h.2 fun p hp q hq => hi p (List.mem_cons_of_mem _ hp) q (List.mem_cons_of_mem _ hq)⟩
    intro hm
    obtain ⟨q, hq, hid⟩ := List.mem_map.1 hm
    exact h.1 (hi a List.mem_cons_self q (List.mem_cons_of_mem _ hq) hid.symm ▸ hq)

theorem addNew_nodup {α : Type} [DecidableEq α] : ∀ {l s : List α}, s.Nodup → (addNew s l).Nodup
  | [], _, h => h
  | a :: l, s, h => by
    unfold addNew
    apply addNew_nodup
    split
    · exact h
    · rename_i ha
      rw [List.nodup_append]
      refine ⟨h, by simp, ?_⟩
      intro x hx y hy hxy
      obtain rfl := List.mem_singleton.1 hy
      exact ha (hxy ▸ hx)

theorem processFlush_nodup (session : String) (t c : List String) (pending : List Pending) (streams : List Stream) :
    ∀ (l : List FlushCfg) (r : FlushResult), r.new.Nodup →
      (l.foldl (FlushResult.add session t c pending streams) r).new.Nodup
  | [], _, h => h
  | a :: l, r, h => by
    simp only [List.foldl_cons]
    apply processFlush_nodup
    unfold FlushResult.add
    split
    · exact h
    · dsimp only
      split
      · exact h
      · exact addNew_nodup h

theorem processFlush_new (session : String) (t c : List String) (pending : List Pending) (streams : List Stream) :
    ∀ (l : List FlushCfg) (r : FlushResult),
      (∀ p ∈ (l.foldl (FlushResult.add session t c pending streams) r).new, p ∈ r.new ∨
        ((∀ q ∈ pending, q.id ≠ p.id) ∧ (∀ s ∈ streams, s.id ≠ p.id) ∧ ∃ a ∈ l, Pending.new a session t c = some p))
  | [], r, p, h => .inl h
  | a :: l, r, p, h => by
    simp only [List.foldl_cons] at h
    rcases processFlush_new session t c pending streams l _ p h with h | ⟨h1, h2, x, hx, h3⟩
    · unfold FlushResult.add at h
      cases hn : Pending.new a session t c with
      | none => rw [hn] at h; exact .inl h
      | some q =>
        rw [hn] at h
        dsimp only at h
        split at h
        · exact .inl h
        · rename_i hc
          rcases mem_addNew.1 h with h | h
          · exact .inl h
          · obtain rfl := List.mem_singleton.1 h
            right
            simp only [Bool.or_eq_true, List.any_eq_true, decide_eq_true_eq, not_or, not_exists, not_and] at hc
            exact ⟨hc.1, hc.2, a, List.mem_cons_self, hn⟩
    · exact .inr ⟨h1, h2, x, List.mem_cons_of_mem _ hx, h3⟩

theorem addNew_nodup_ids {s : List Pending} (hs : (s.map (·.id)).Nodup) : ∀ {l : List Pending},
    (∀ p ∈ l, ∀ q ∈ l, p.id = q.id → p = q) → (∀ p ∈ l, ∀ q ∈ s, q.id = p.id → q = p) →
      ((addNew s l).map (·.id)).Nodup
  | [], _, _ => hs
  | a :: l, h1, h2 => by
    unfold addNew
    by_cases ha : a ∈ s
    · rw [if_pos ha]
      exact addNew_nodup_ids hs (fun p hp q hq => h1 p (List.mem_cons_of_mem _ hp) q (List.mem_cons_of_mem _ hq))
        fun p hp => h2 p (List.mem_cons_of_mem _ hp)
    · rw [if_neg ha]
      refine addNew_nodup_ids (s := s ++ [a]) ?_
        (fun p hp q hq => h1 p (List.mem_cons_of_mem _ hp) q (List.mem_cons_of_mem _ hq)) ?_
      · rw [List.map_append, List.nodup_append]
        refine ⟨hs, by simp, ?_⟩
        intro x hx y hy hxy
        obtain ⟨q, hq, rfl⟩ := List.mem_map.1 hx
        have : y = a.id := by simpa using hy
        rw [this] at hxy
        exact ha (h2 a List.mem_cons_self q hq hxy ▸ hq)
      · intro p hp q hq hqp
        rcases List.mem_append.1 hq with hq | hq
        · exact h2 p (List.mem_cons_of_mem _ hp) q hq hqp
        · obtain rfl := List.mem_singleton.1 hq
          exact h1 q List.mem_cons_self p (List.mem_cons_of_mem _ hp) hqp

theorem handle_new (e : Engine) (log : Log) (dests : List String) (v : LogEnv) :
    ∃ new : List Pending, new.Nodup ∧
      (e.handle log dests v).1.pending = addNew e.pending new ∧
      (e.handle log dests v).1.sent = e.sent ++ accepted new v.pendingOks ∧
      ∀ p ∈ new, (∀ q ∈ e.pending, q.id ≠ p.id) ∧ (∀ s ∈ (e.handle log dests v).1.streams, s.id ≠ p.id) ∧
        p.session = e.session ∧
        ∃ x ∈ e.workflows.zip e.configs, ∃ a ∈ x.2.flushes, Pending.new a e.session e.triggers e.conts = some p := by
  unfold Engine.handle
  split
  · refine ⟨[], by simp, rfl, ?_, by intro p hp; cases hp⟩
    simp [accepted]
  · dsimp only
    refine ⟨_, processFlush_nodup _ _ _ _ _ _ _ (by simp), rfl, rfl, ?_⟩
    intro p hp
    rcases processFlush_new _ _ _ _ _ _ _ p hp with h | ⟨h1, h2, a, ha, h3⟩
    · cases h
    · obtain ⟨x, hx, hf⟩ := all_flush _ _ (mem_flushActions ha)
      exact ⟨h1, h2, (pending_new h3).2, x, hx, a, hf, h3⟩

theorem mem_accepted {α : Type} {x : α} : ∀ {l : List α} {oks : List Bool}, x ∈ accepted l oks → x ∈ l
  | [], _, h => by simp [accepted] at h
  | a :: l, [], h => by
    unfold accepted at h
    rcases List.mem_cons.1 h with rfl | h
    · exact List.mem_cons_self
    · exact List.mem_cons_of_mem _ (mem_accepted h)
  | a :: l, ok :: oks, h => by
    unfold accepted at h
    split at h
    · rcases List.mem_cons.1 h with rfl | h
      · exact List.mem_cons_self
      · exact List.mem_cons_of_mem _ (mem_accepted h)
    · exact List.mem_cons_of_mem _ (mem_accepted h)

theorem accepted_sublist {α : Type} : ∀ (l : List α) (oks : List Bool), (accepted l oks).Sublist l
  | [], _ => by simp [accepted]
  | a :: l, [] => by
    unfold accepted
    exact (accepted_sublist l []).cons_cons a
  | a :: l, ok :: oks => by
    unfold accepted
    split
    · exact (accepted_sublist l oks).cons_cons a
    · exact (accepted_sublist l oks).cons a

/-- C39.  What a log sends for negotiation is neither pending already nor streaming. -/
theorem C39_not_again (e : Engine) (log : Log) (dests : List String) (v : LogEnv) :
    ∃ new, (e.processLog log dests v).1.sent = e.sent ++ new ∧
      ∀ p ∈ new, (∀ q ∈ e.pending, q.id ≠ p.id) ∧ (∀ s ∈ (e.processLog log dests v).1.streams, s.id ≠ p.id) := by
  obtain ⟨w, n, d, he⟩ := enter_other e log.session
  obtain ⟨new, hnd, h1, h2, h3⟩ := handle_new (e.enter log.session) log dests v
  refine ⟨accepted new v.pendingOks, ?_, ?_⟩
  · have : (e.enter log.session).sent = e.sent := by rw [he]
    rw [← this]
    exact h2
  · intro p hp
    obtain ⟨h4, h5, _⟩ := h3 p (mem_accepted hp)
    have : (e.enter log.session).pending = e.pending := by rw [he]
    rw [this] at h4
    exact ⟨h4, h5⟩

/-! ### Histories -/

/-- One step of `flying`. -/
def fly (e : Engine) (fl : List Pending) (op : Op) : List Pending :=
  match op with
  | .start .. => (e.apply op).sent
  | .log .. => fl ++ (e.apply op).sent.drop e.sent.length
  | .approved p _ => fl.erase p
  | .rejected p => fl.erase p
  | _ => fl

/-- One step of `Sensible`. -/
def sensible (e : Engine) (fl : List Pending) (op : Op) : Prop :=
  match op with
  | .update ec => ∀ p ∈ e.pending, ∃ t ∈ p.triggers, t ∈ ec.triggers
  | .approved p _ => p ∈ fl
  | .rejected p => p ∈ fl
  | _ => True

/-- The negotiations going on: sent, and neither approved nor rejected; a new process starts with what it sends. -/
def flying : Engine → List Pending → List Op → List Pending
  | _, fl, [] => fl
  | e, fl, op :: ops =>
    flying (e.apply op) (fly e fl op) ops

/-- Answers are for negotiations going on; an update leaves each pending action one of its buffers. -/
def Sensible : Engine → List Pending → List Op → Prop
  | _, _, [] => True
  | e, fl, op :: ops =>
    sensible e fl op ∧
    Sensible (e.apply op) (fly e fl op) ops

structure Once (cs : List Config) (e : Engine) (fl : List Pending) : Prop where
  good : Good cs (fun _ _ => True) (fun _ => True) e
  pending : (e.pending.map (·.id)).Nodup
  stored : ∀ s, e.disk = some s → (s.pending.map (·.id)).Nodup
  flying : (fl.map (·.id)).Nodup
  within : ∀ p ∈ fl, ∃ q ∈ e.pending, q.id = p.id

theorem stdPending_ids {t : List String} {l : List Pending} (h : (l.map (·.id)).Nodup) :
    ((stdPending t l).map (·.id)).Nodup := by
  have hids : ∀ (l : List Pending), (l.map (·.id)).Nodup →
      ∀ p ∈ (l.filterMap fun p => if p.triggers.any (· ∈ t) then some { p with triggers := p.triggers.filter (· ∈ t) } else none),
      ∀ q ∈ (l.filterMap fun p => if p.triggers.any (· ∈ t) then some { p with triggers := p.triggers.filter (· ∈ t) } else none),
        p.id = q.id → p = q := by
    intro l hl p hp q hq hid
    obtain ⟨p', hp', hpe⟩ := List.mem_filterMap.1 hp
    obtain ⟨q', hq', hqe⟩ := List.mem_filterMap.1 hq
    split at hpe
    · split at hqe
      · cases hpe
        cases hqe
        have hid : p'.id = q'.id := hid
        have : p' = q' := by
          obtain ⟨i, hi⟩ := List.mem_iff_getElem?.1 hp'
          obtain ⟨j, hj⟩ := List.mem_iff_getElem?.1 hq'
          have h1 : (l.map (·.id))[i]? = some p'.id := by rw [List.getElem?_map, hi]; rfl
          have h2 : (l.map (·.id))[j]? = some p'.id := by rw [List.getElem?_map, hj, hid]; rfl
          have hij : i = j := by
            have hi' := (List.getElem?_eq_some_iff.1 h1).1
            exact (List.getElem?_inj hi' hl).1 (h1.trans h2.symm)
          subst hij
          rw [hi] at hj
          exact Option.some.inj hj
        rw [this]
      · cases hqe
    · cases hpe
  unfold stdPending
  refine addNew_nodup_ids (by simp) (hids l h) ?_
  intro p _ q hq
  cases hq

theorem flying_keeps {fl : List Pending} (p : Pending) (h : (fl.map (·.id)).Nodup) :
    ((fl.erase p).map (·.id)).Nodup :=
  h.sublist ((List.erase_sublist).map _)

theorem erase_other {fl : List Pending} {p q : Pending} (h : (fl.map (·.id)).Nodup) (hp : p ∈ fl) (hq : q ∈ fl.erase p) :
    q.id ≠ p.id := by
  intro hid
  induction fl with
  | nil => cases hp
  | cons a l ih =>
    rw [List.map_cons, List.nodup_cons] at h
    rw [List.erase_cons] at hq
    split at hq
    · rename_i hap
      have hap : a = p := by simpa using hap
      subst hap
      exact h.1 (hid ▸ List.mem_map.2 ⟨q, hq, rfl⟩)
    · rename_i hap
      have hap : a ≠ p := by simpa using hap
      have hp' : p ∈ l := (List.mem_cons.1 hp).resolve_left (fun h => hap h.symm)
      rcases List.mem_cons.1 hq with rfl | hq
      · exact h.1 (hid ▸ List.mem_map.2 ⟨p, hp', rfl⟩)
      · exact ih h.2 hp' hq

theorem filter_ne_within {l : List Pending} {p q : Pending} (hq : q ∈ l) (hid : q.id ≠ p.id) : q ∈ l.filter (· ≠ p) := by
  refine List.mem_filter.2 ⟨hq, ?_⟩
  simp only [decide_eq_true_eq]
  intro h
  exact hid (by rw [h])

theorem Once.step {cs : List Config} (ha : OneAction cs) {e : Engine} {fl : List Pending} (h : Once cs e fl) (op : Op)
    (hc : ∀ c ∈ op.configs, c ∈ cs)
    (hs : sensible e fl op) : Once cs (e.apply op) (fly e fl op) := by
  unfold sensible at hs
  unfold fly
  have hg := h.good.apply (keeps_nothing cs) op hc
  cases op with
  | start limit readable oks ec =>
    obtain ⟨_, _, _, h3, h5⟩ := start_other e limit readable oks ec
    have hst : ∀ s, (if readable then e.disk else none) = some s → (s.pending.map (·.id)).Nodup := by
      intro s hs
      split at hs
      · exact h.stored s hs
      · cases hs
    dsimp only
    refine ⟨hg, ?_, ?_, ?_, ?_⟩
    · show ((e.start limit readable oks ec).pending.map (·.id)).Nodup
      rcases h3 with ⟨_, h4, _, _⟩ | ⟨s, hs, h4, _, _⟩
      · rw [h4]; simp
      · rw [h4]; exact stdPending_ids (hst s hs)
    · show ∀ s, (e.start limit readable oks ec).disk = some s → _
      rw [h5]; exact hst
    · show ((e.start limit readable oks ec).sent.map (·.id)).Nodup
      rcases h3 with ⟨_, _, _, h4⟩ | ⟨s, hs, _, _, h4⟩
      · rw [h4]; simp
      · rw [h4]
        exact (stdPending_ids (hst s hs)).sublist ((accepted_sublist _ _).map _)
    · intro p hp
      have hp : p ∈ (e.start limit readable oks ec).sent := hp
      show ∃ q ∈ (e.start limit readable oks ec).pending, _
      rcases h3 with ⟨_, _, _, h4⟩ | ⟨s, hs, h6, _, h4⟩
      · rw [h4] at hp; cases hp
      · rw [h4] at hp
        rw [h6]
        exact ⟨p, mem_accepted hp, rfl⟩
  | update ec =>
    obtain ⟨c, n, w, d, hu⟩ := update_other e ec
    have hu : e.apply (.update ec) = _ := hu
    dsimp only
    rw [hu] at hg ⊢
    refine ⟨hg, stdPending_ids h.pending, h.stored, h.flying, ?_⟩
    intro p hp
    obtain ⟨q, hq, hid⟩ := h.within p hp
    obtain ⟨t, ht1, ht2⟩ := hs q hq
    refine ⟨{ q with triggers := q.triggers.filter (· ∈ ec.triggers) }, ?_, hid⟩
    unfold stdPending
    refine mem_addNew.2 (.inr (List.mem_filterMap.2 ⟨q, hq, ?_⟩))
    rw [if_pos]
    rw [List.any_eq_true]
    exact ⟨t, ht1, by simpa using ht2⟩
  | log l dests v =>
    obtain ⟨w, n, d, he⟩ := enter_other e l.session
    have hge : Good cs (fun _ _ => True) (fun _ => True) (e.enter l.session) := h.good.enter (keeps_nothing cs) l.session
    obtain ⟨new, hnd, h1, h2, h3⟩ := handle_new (e.enter l.session) l dests v
    have hp : (e.enter l.session).pending = e.pending := by rw [he]
    have hsn : (e.enter l.session).sent = e.sent := by rw [he]
    have hdisk : (e.enter l.session).disk = e.disk := by rw [he]
    rw [hp] at h1
    rw [hsn] at h2
    have hdisk2 : (e.apply (.log l dests v)).disk = e.disk := by
      show ((e.enter l.session).handle l dests v).1.disk = e.disk
      rw [← hdisk]
      unfold Engine.handle
      split <;> rfl
    have hnew : ∀ p ∈ new, ∀ q ∈ new, p.id = q.id → p = q := by
      intro p hp q hq hid
      obtain ⟨_, _, _, x, hx, a, hxa, hpa⟩ := h3 p hp
      obtain ⟨_, _, _, y, hy, b, hyb, hqb⟩ := h3 q hq
      have hab : a = b := by
        refine ha x.2 (hge.1.zip x hx).2.1 y.2 (hge.1.zip y hy).2.1 a hxa b hyb ?_
        rw [← (pending_new hpa).1, ← (pending_new hqb).1]
        exact hid
      rw [hab, hqb] at hpa
      exact (Option.some.inj hpa).symm
    have hold : ∀ p ∈ new, ∀ q ∈ e.pending, q.id = p.id → q = p := by
      intro p hp' q hq hid
      exact absurd hid ((h3 p hp').1 q (by rw [hp]; exact hq))
    have hdrop : (e.apply (.log l dests v)).sent.drop e.sent.length = accepted new v.pendingOks := by
      show ((e.enter l.session).handle l dests v).1.sent.drop e.sent.length = _
      rw [h2]
      simp
    dsimp only
    rw [hdrop]
    refine ⟨hg, ?_, ?_, ?_, ?_⟩
    · show (((e.enter l.session).handle l dests v).1.pending.map (·.id)).Nodup
      rw [h1]
      exact addNew_nodup_ids h.pending hnew hold
    · rw [hdisk2]; exact h.stored
    · rw [List.map_append, List.nodup_append]
      refine ⟨h.flying, ?_, ?_⟩
      · exact (nodup_ids hnd hnew).sublist ((accepted_sublist _ _).map _)
      · intro x hx y hy hxy
        obtain ⟨p, hp', rfl⟩ := List.mem_map.1 hx
        obtain ⟨q, hq', rfl⟩ := List.mem_map.1 hy
        obtain ⟨z, hz, hzid⟩ := h.within p hp'
        exact (h3 q (mem_accepted hq')).1 z (by rw [hp]; exact hz) (by rw [hzid, hxy])
    · intro p hp'
      show ∃ q ∈ ((e.enter l.session).handle l dests v).1.pending, q.id = p.id
      rw [h1]
      rcases List.mem_append.1 hp' with hp' | hp'
      · obtain ⟨q, hq, hid⟩ := h.within p hp'
        exact ⟨q, mem_addNew.2 (.inl hq), hid⟩
      · exact ⟨p, mem_addNew.2 (.inr (mem_accepted hp')), rfl⟩
  | approved p ok =>
    have key : (e.approved p ok).pending = e.pending.filter (· ≠ p) ∧ (e.approved p ok).disk = e.disk := by
      unfold Engine.approved
      dsimp only
      split
      · split <;> exact ⟨rfl, rfl⟩
      · exact ⟨rfl, rfl⟩
    dsimp only at hs ⊢
    refine ⟨hg, ?_, ?_, flying_keeps p h.flying, ?_⟩
    · show ((e.approved p ok).pending.map (·.id)).Nodup
      rw [key.1]
      exact h.pending.sublist (List.filter_sublist.map _)
    · show ∀ s, (e.approved p ok).disk = some s → _
      rw [key.2]; exact h.stored
    · intro q hq
      show ∃ z ∈ (e.approved p ok).pending, _
      rw [key.1]
      obtain ⟨z, hz, hid⟩ := h.within q (List.mem_of_mem_erase hq)
      exact ⟨z, filter_ne_within hz (by rw [hid]; exact erase_other h.flying hs hq), hid⟩
  | rejected p =>
    dsimp only at hs ⊢
    refine ⟨hg, h.pending.sublist (List.filter_sublist.map _), h.stored, flying_keeps p h.flying, ?_⟩
    intro q hq
    obtain ⟨z, hz, hid⟩ := h.within q (List.mem_of_mem_erase hq)
    exact ⟨z, filter_ne_within hz (by rw [hid]; exact erase_other h.flying hs hq), hid⟩
  | flushed id => exact ⟨hg, h.pending, h.stored, h.flying, h.within⟩
  | persist due out =>
    dsimp only
    have key : (e.persist due out).pending = e.pending ∧
        ∀ s, (e.persist due out).disk = some s → (s.pending.map (·.id)).Nodup := by
      unfold Engine.persist
      split
      · refine ⟨rfl, ?_⟩
        cases out with
        | ok => intro s hs; cases hs; exact h.pending
        | fail => exact h.stored
        | torn => intro s hs; cases hs
      · exact ⟨rfl, h.stored⟩
    refine ⟨hg, ?_, key.2, h.flying, ?_⟩
    · show ((e.persist due out).pending.map (·.id)).Nodup
      rw [key.1]; exact h.pending
    · show ∀ p ∈ fl, ∃ q ∈ (e.persist due out).pending, q.id = p.id
      rw [key.1]; exact h.within

theorem once_run {cs : List Config} (ha : OneAction cs) : ∀ (ops : List Op) (e : Engine) (fl : List Pending),
    Once cs e fl → Sensible e fl ops → (∀ op ∈ ops, ∀ c ∈ op.configs, c ∈ cs) → Once cs (e.run ops) (flying e fl ops)
  | [], _, _, h, _, _ => h
  | op :: ops, e, fl, h, hs, hc => by
    unfold Engine.run flying
    simp only [List.foldl_cons]
    exact once_run ha ops _ _ (h.step ha op (hc op List.mem_cons_self) hs.1) hs.2
      fun x hx => hc x (List.mem_cons_of_mem _ hx)

/-- C39.  Over all histories in which an identifier stands for one flush action, answers are for negotiations going on,
and updates leave each pending action one of its buffers: no two negotiations going on are for the same action, and each
is pending.  Missing: updates that take all buffers away from a pending action, see `C39_readded_violated`. -/
theorem C39_partial (ops : List Op) (ha : OneAction (histConfigs ops)) (hs : Sensible {} [] ops) :
    ((flying {} [] ops).map (·.id)).Nodup ∧ ((({} : Engine).run ops).pending.map (·.id)).Nodup ∧
      ∀ p ∈ flying {} [] ops, ∃ q ∈ (({} : Engine).run ops).pending, q.id = p.id := by
  have h := once_run ha ops {} [] ⟨Good.init, by simp, (by intro s hs; cases hs), by simp, (by intro p hp; cases hp)⟩ hs
    mem_histConfigs
  exact ⟨h.flying, h.pending, h.within⟩

/-! ### C63: an answer ends the negotiation -/

/-- C63.  When the answer for an action arrives, and its buffers are those it was sent with, the action is no longer
pending.  Missing: actions whose buffers an update has changed since they were sent. -/
theorem C63_partial (e : Engine) (p : Pending) (ok : Bool) (hn : (e.pending.map (·.id)).Nodup) (hp : p ∈ e.pending) :
    (∀ q ∈ (e.approved p ok).pending, q.id ≠ p.id) ∧ (∀ q ∈ (e.rejected p).pending, q.id ≠ p.id) := by
  have key : ∀ q ∈ e.pending.filter (· ≠ p), q.id ≠ p.id := by
    intro q hq hid
    obtain ⟨h1, h2⟩ := List.mem_filter.1 hq
    have h2 : q ≠ p := by simpa using h2
    obtain ⟨i, hi⟩ := List.mem_iff_getElem?.1 h1
    obtain ⟨j, hj⟩ := List.mem_iff_getElem?.1 hp
    have e1 : (e.pending.map (·.id))[i]? = some p.id := by rw [List.getElem?_map, hi, ← hid]; rfl
    have e2 : (e.pending.map (·.id))[j]? = some p.id := by rw [List.getElem?_map, hj]; rfl
    have hij : i = j := (List.getElem?_inj (List.getElem?_eq_some_iff.1 e1).1 hn).1 (e1.trans e2.symm)
    subst hij
    rw [hi] at hj
    exact h2 (Option.some.inj hj)
  constructor
  · intro q hq
    have : (e.approved p ok).pending = e.pending.filter (· ≠ p) := by
      unfold Engine.approved
      dsimp only
      split
      · split <;> rfl
      · rfl
    rw [this] at hq
    exact key q hq
  · exact key

/-! ### Examples and violations -/

namespace Ex
/-- flushes "t" and "u" on matcher 1, again and again -/
def again : Config :=
  { id := "a", exclusive := false,
    states := [⟨"0", [⟨1, .logMatch 1 1, [.flush ⟨"fl", ["t", "u"], none⟩], []⟩]⟩, ⟨"1", [⟨0, .logMatch 9 1, [], []⟩]⟩] }
def both : Pending := ⟨"fl", "s", ["t", "u"], none⟩
def twice : List Op :=
  [.start 9 true [] ⟨[again], ["t", "u"], []⟩, log [1], log [1], .update ⟨[again], ["t"], []⟩, log [1], .rejected both, log [1]]
end Ex

example : OneAction (histConfigs Ex.twice) := by
  intro c hc c' hc' a ha a' ha' _
  have key : ∀ x, x ∈ histConfigs Ex.twice → x = Ex.again := by
    intro x hx
    simpa [histConfigs, Op.configs, Ex.twice, Ex.log] using hx
  rw [key c hc] at ha
  rw [key c' hc'] at ha'
  have h : Ex.again.flushes = [⟨"fl", ["t", "u"], none⟩] := by decide
  rw [h] at ha ha'
  rw [List.mem_singleton.1 ha, List.mem_singleton.1 ha']
example : Sensible {} [] Ex.twice := by
  refine ⟨trivial, trivial, trivial, ?_, trivial, ?_, trivial, trivial⟩ <;> unfold sensible <;> decide +kernel
example : (flying {} [] (Ex.twice.take 5)) = [Ex.both] := by decide +kernel

/-- An update takes all buffers of a pending action away, another one brings them back: the action is sent again while the
first negotiation is still going on. -/
theorem C39_readded_violated :
    flying {} [] [.start 9 true [] ⟨[Ex.again], ["t", "u"], []⟩, Ex.log [1], .update ⟨[Ex.again], ["x"], []⟩,
      .update ⟨[Ex.again], ["t", "u"], []⟩, Ex.log [1]] = [Ex.both, Ex.both] := by decide +kernel

/-- Two actions with one identifier, triggered by the same log, are both sent. -/
theorem C39_same_identifier :
    let c : Config := { Ex.again with
      states := [⟨"0", [⟨1, .logMatch 1 1, [.flush ⟨"fl", ["t"], none⟩, .flush ⟨"fl", ["u"], none⟩], []⟩]⟩, ⟨"1", []⟩] }
    (({} : Engine).run [.start 9 true [] ⟨[c], ["t", "u"], []⟩, Ex.log [1]]).sent.map (·.id) = ["fl", "fl"] := by
  decide +kernel

/-- An update takes one of two buffers away from an action in negotiation.  The answer carries the action as it was sent;
no pending action equals it, so the action stays pending, and logs that trigger it have no effect. -/
theorem C63_narrowed_violated :
    (({} : Engine).run Ex.twice).pending = [⟨"fl", "s", ["t"], none⟩] ∧ flying {} [] Ex.twice = [] := by decide +kernel

end Verif.Wf
