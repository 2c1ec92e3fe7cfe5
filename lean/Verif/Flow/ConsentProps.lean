import Verif.Flow.Consent

/-
C121: a trigger buffer leaves the device only when the server asked for it, or agreed to it for an action of a workflow it has sent.
-/
namespace Verif.Wf

/-! ### Where actions come from -/

/-- The action comes from a flush action of a workflow in one of these configurations, which names its buffers or none at all (all trigger
buffers). -/
def From (H : List EngineCfg) (p : Pending) : Prop :=
  ∃ ec ∈ H, ∃ c ∈ ec.configs, ∃ a ∈ c.flushes, p.id = a.id ∧
    ∀ t ∈ p.triggers, (a.buffers = [] ∨ t ∈ a.buffers) ∧ ∃ ec' ∈ H, t ∈ ec'.triggers

def SysOp.cfgs : SysOp → List EngineCfg
  | .start _ _ _ ec => [ec]
  | .update ec => [ec]
  | _ => []

structure Origin (H : List EngineCfg) (s : System) : Prop where
  good : Good (H.flatMap (·.configs)) (fun _ _ => True) (fun _ => True) s.engine
  trig : ∀ t ∈ s.engine.triggers, ∃ ec ∈ H, t ∈ ec.triggers
  pending : ∀ p ∈ s.engine.pending, From H p
  disk : ∀ st, s.engine.disk = some st → ∀ p ∈ st.pending, From H p
  queue : ∀ p ∈ s.queue, From H p
  outputs : ∀ x ∈ s.neg.outputs, From H x.1
  consents : ∀ p ∈ s.consents, From H p

theorem From.std {H : List EngineCfg} {t : List String} {l : List Pending} (h : ∀ p ∈ l, From H p) : ∀ p ∈ stdPending t l, From H p := by
  intro p hp
  unfold stdPending at hp
  rcases mem_addNew.1 hp with hp | hp
  · cases hp
  · obtain ⟨q, hq, e⟩ := List.mem_filterMap.1 hp
    split at e
    · cases e
      obtain ⟨ec, h1, c, h2, a, h3, h4, h5⟩ := h q hq
      exact ⟨ec, h1, c, h2, a, h3, h4, fun x hx => h5 x ((List.mem_filter.1 hx).1)⟩
    · cases e

theorem From.new {H : List EngineCfg} {e : Engine} (hg : Good (H.flatMap (·.configs)) (fun _ _ => True) (fun _ => True) e)
    (ht : ∀ t ∈ e.triggers, ∃ ec ∈ H, t ∈ ec.triggers) {x : Workflow × Config} (hx : x ∈ e.workflows.zip e.configs) {a : FlushCfg}
    (ha : a ∈ x.2.flushes) {session : String} {p : Pending} (hp : Pending.new a session e.triggers e.conts = some p) : From H p := by
  obtain ⟨ec, h1, h2⟩ := List.mem_flatMap.1 (hg.1.zip x hx).2.1
  refine ⟨ec, h1, x.2, h2, a, ha, (pending_new hp).1, ?_⟩
  have key : p.triggers = if a.buffers.isEmpty then e.triggers else a.buffers.filter (· ∈ e.triggers) := by
    unfold Pending.new at hp
    generalize (if a.buffers.isEmpty then e.triggers else a.buffers.filter (· ∈ e.triggers)) = b at hp ⊢
    cases b with
    | nil => cases hp
    | cons x l => cases hp; rfl
  rw [key]
  intro t htm
  split at htm
  · rename_i he
    exact ⟨Or.inl (List.isEmpty_iff.1 he), ht t htm⟩
  · obtain ⟨h3, h4⟩ := List.mem_filter.1 htm
    exact ⟨Or.inr h3, ht t (by simpa using h4)⟩

/-- What a step of the engine alone does to the actions. -/
theorem Origin.apply {H : List EngineCfg} {s : System} (h : Origin H s) (op : Op) (hc : ∀ limit r oks ec, op = .start limit r oks ec ∨ op = .update ec → ec ∈ H) :
    Good (H.flatMap (·.configs)) (fun _ _ => True) (fun _ => True) (s.engine.apply op) ∧
    (∀ t ∈ (s.engine.apply op).triggers, ∃ ec ∈ H, t ∈ ec.triggers) ∧
    (∀ p ∈ (s.engine.apply op).pending, From H p) ∧
    (∀ st, (s.engine.apply op).disk = some st → ∀ p ∈ st.pending, From H p) ∧
    (∀ p ∈ (s.engine.apply op).sent, p ∈ s.engine.sent ∨ From H p) ∧
    ((∃ limit r oks ec, op = .start limit r oks ec) → ∀ p ∈ (s.engine.apply op).sent, From H p) ∧
    (∀ l d v, op = .log l d v → ∃ new, (s.engine.apply op).sent = s.engine.sent ++ new ∧ ∀ p ∈ new, From H p) := by
  have hg := h.good.apply (keeps_nothing _) op (by
    intro c hcm
    cases op with
    | start limit readable oks ec => exact List.mem_flatMap.2 ⟨ec, hc limit readable oks ec (Or.inl rfl), hcm⟩
    | update ec => exact List.mem_flatMap.2 ⟨ec, hc 0 true [] ec (Or.inr rfl), hcm⟩
    | _ => cases hcm)
  refine ⟨hg, ?_⟩
  cases op with
  | start limit readable oks ec =>
    have hec := hc limit readable oks ec (Or.inl rfl)
    obtain ⟨t1, _, _, h3, h5⟩ := start_other s.engine limit readable oks ec
    have hst : ∀ st, (if readable then s.engine.disk else none) = some st → ∀ p ∈ st.pending, From H p := by
      intro st hs
      split at hs
      · exact h.disk st hs
      · cases hs
    have hsent : ∀ p ∈ (s.engine.start limit readable oks ec).sent, From H p := by
      intro p hp
      rcases h3 with ⟨_, _, _, h4⟩ | ⟨st, hs, _, _, h4⟩
      · rw [h4] at hp; cases hp
      · rw [h4] at hp; exact From.std (hst st hs) p (mem_accepted hp)
    refine ⟨?_, ?_, ?_, fun p hp => Or.inr (hsent p hp), fun _ => hsent, nofun⟩
    · intro t ht
      have ht : t ∈ (s.engine.start limit readable oks ec).triggers := ht
      rw [t1] at ht
      exact ⟨ec, hec, ht⟩
    · intro p hp
      have hp : p ∈ (s.engine.start limit readable oks ec).pending := hp
      rcases h3 with ⟨_, h4, _, _⟩ | ⟨st, hs, h4, _, _⟩
      · rw [h4] at hp; cases hp
      · rw [h4] at hp; exact From.std (hst st hs) p hp
    · show ∀ st, (s.engine.start limit readable oks ec).disk = some st → _
      rw [h5]; exact hst
  | update ec =>
    have hec := hc 0 true [] ec (Or.inr rfl)
    obtain ⟨c, n, w, d, hu⟩ := update_other s.engine ec
    have hu : s.engine.apply (.update ec) = _ := hu
    rw [hu]
    exact ⟨fun t ht => ⟨ec, hec, ht⟩, From.std h.pending, h.disk, fun p hp => Or.inl hp, nofun, nofun⟩
  | log l dests v =>
    obtain ⟨w, n, d, he⟩ := enter_other s.engine l.session
    have hge := h.good.enter (keeps_nothing _) l.session
    obtain ⟨new, _, h1, h2, h3⟩ := handle_new (s.engine.enter l.session) l dests v
    have ht : (s.engine.enter l.session).triggers = s.engine.triggers := by rw [he]
    have hp : (s.engine.enter l.session).pending = s.engine.pending := by rw [he]
    have hsn : (s.engine.enter l.session).sent = s.engine.sent := by rw [he]
    have hfrom : ∀ p ∈ new, From H p := by
      intro p hp'
      obtain ⟨_, _, _, x, hx, a, hxa, hpa⟩ := h3 p hp'
      exact From.new hge (by rw [ht]; exact h.trig) hx hxa hpa
    have hdisk : (s.engine.apply (.log l dests v)).disk = s.engine.disk := by
      show ((s.engine.enter l.session).handle l dests v).1.disk = s.engine.disk
      have : (s.engine.enter l.session).disk = s.engine.disk := by rw [he]
      rw [← this]
      unfold Engine.handle
      split <;> rfl
    have htr : (s.engine.apply (.log l dests v)).triggers = s.engine.triggers := by
      show ((s.engine.enter l.session).handle l dests v).1.triggers = s.engine.triggers
      rw [← ht]
      unfold Engine.handle
      split <;> rfl
    rw [hp] at h1
    rw [hsn] at h2
    refine ⟨by rw [htr]; exact h.trig, ?_, by rw [hdisk]; exact h.disk, ?_, nofun, ?_⟩
    · intro p hp'
      have hp' : p ∈ ((s.engine.enter l.session).handle l dests v).1.pending := hp'
      rw [h1] at hp'
      rcases mem_addNew.1 hp' with h' | h'
      · exact h.pending p h'
      · exact hfrom p h'
    · intro p hp'
      have hp' : p ∈ ((s.engine.enter l.session).handle l dests v).1.sent := hp'
      rw [h2] at hp'
      rcases List.mem_append.1 hp' with h' | h'
      · exact Or.inl h'
      · exact Or.inr (hfrom p (mem_accepted h'))
    · intro _ _ _ e
      cases e
      exact ⟨_, h2, fun p hp' => hfrom p (mem_accepted hp')⟩
  | approved p ok =>
    have key : (s.engine.approved p ok).pending = s.engine.pending.filter (· ≠ p) ∧ (s.engine.approved p ok).disk = s.engine.disk ∧
        (s.engine.approved p ok).triggers = s.engine.triggers ∧ (s.engine.approved p ok).sent = s.engine.sent := by
      unfold Engine.approved
      dsimp only
      split
      · split <;> exact ⟨rfl, rfl, rfl, rfl⟩
      · exact ⟨rfl, rfl, rfl, rfl⟩
    obtain ⟨k1, k2, k3, k4⟩ := key
    show (∀ t ∈ (s.engine.approved p ok).triggers, _) ∧ (∀ q ∈ (s.engine.approved p ok).pending, _) ∧
      (∀ st, (s.engine.approved p ok).disk = some st → _) ∧ (∀ q ∈ (s.engine.approved p ok).sent, _) ∧ _
    rw [k1, k2, k3, k4]
    exact ⟨h.trig, fun q hq => h.pending q ((List.mem_filter.1 hq).1), h.disk, fun q hq => Or.inl hq, nofun, nofun⟩
  | rejected p => exact ⟨h.trig, fun q hq => h.pending q ((List.mem_filter.1 hq).1), h.disk, fun q hq => Or.inl hq, nofun, nofun⟩
  | flushed id => exact ⟨h.trig, h.pending, h.disk, fun q hq => Or.inl hq, nofun, nofun⟩
  | persist due out =>
    have key : (s.engine.persist due out).pending = s.engine.pending ∧ (s.engine.persist due out).triggers = s.engine.triggers ∧
        (s.engine.persist due out).sent = s.engine.sent ∧
        ∀ st, (s.engine.persist due out).disk = some st → ∀ p ∈ st.pending, From H p := by
      unfold Engine.persist
      split
      · refine ⟨rfl, rfl, rfl, ?_⟩
        cases out with
        | ok => intro st hs; cases hs; exact h.pending
        | fail => exact h.disk
        | torn => intro st hs; cases hs
      · exact ⟨rfl, rfl, rfl, h.disk⟩
    obtain ⟨k1, k2, k3, k4⟩ := key
    show (∀ t ∈ (s.engine.persist due out).triggers, _) ∧ (∀ q ∈ (s.engine.persist due out).pending, _) ∧
      (∀ st, (s.engine.persist due out).disk = some st → _) ∧ (∀ q ∈ (s.engine.persist due out).sent, _) ∧ _
    rw [k1, k2, k3]
    exact ⟨h.trig, h.pending, k4, fun q hq => Or.inl hq, nofun, nofun⟩

theorem Origin.step {H : List EngineCfg} {s : System} (h : Origin H s) (op : SysOp) (hc : ∀ ec ∈ op.cfgs, ec ∈ H) : Origin H (s.step op) := by
  cases op with
  | start limit readable oks ec =>
    obtain ⟨a1, a2, a3, a4, _, a6, _⟩ := h.apply (.start limit readable oks ec) (by
      intro _ _ _ ec' e; rcases e with e | e <;> cases e; exact hc _ (List.mem_singleton.2 rfl))
    exact ⟨a1, a2, a3, a4, a6 ⟨_, _, _, _, rfl⟩, nofun, h.consents⟩
  | update ec =>
    obtain ⟨a1, a2, a3, a4, _⟩ := h.apply (.update ec) (by
      intro _ _ _ ec' e; rcases e with e | e <;> cases e; exact hc _ (List.mem_singleton.2 rfl))
    exact ⟨a1, a2, a3, a4, h.queue, h.outputs, h.consents⟩
  | log l dests v =>
    obtain ⟨a1, a2, a3, a4, _, _, a7⟩ := h.apply (.log l dests v) (by intro _ _ _ ec' e; rcases e with e | e <;> cases e)
    obtain ⟨new, e, hn⟩ := a7 l dests v rfl
    refine ⟨a1, a2, a3, a4, ?_, h.outputs, h.consents⟩
    intro p hp
    have hp : p ∈ s.queue ++ (s.engine.apply (.log l dests v)).sent.drop s.engine.sent.length := hp
    rw [e, List.drop_left] at hp
    rcases List.mem_append.1 hp with hp | hp
    · exact h.queue p hp
    · exact hn p hp
  | flushed id =>
    obtain ⟨a1, a2, a3, a4, _⟩ := h.apply (.flushed id) (by intro _ _ _ ec' e; rcases e with e | e <;> cases e)
    exact ⟨a1, a2, a3, a4, h.queue, h.outputs, h.consents⟩
  | persist due out =>
    obtain ⟨a1, a2, a3, a4, _⟩ := h.apply (.persist due out) (by intro _ _ _ ec' e; rcases e with e | e <;> cases e)
    exact ⟨a1, a2, a3, a4, h.queue, h.outputs, h.consents⟩
  | negotiate r a =>
    unfold System.step
    cases hq : s.queue with
    | nil => exact h
    | cons p q =>
      have hp : From H p := h.queue p (by rw [hq]; exact List.mem_cons_self)
      refine ⟨h.good, h.trig, h.pending, h.disk, fun x hx => h.queue x (by rw [hq]; exact List.mem_cons_of_mem _ hx), ?_, ?_⟩
      · intro x hx
        dsimp only at hx
        rw [process_outputs] at hx
        rcases List.mem_append.1 hx with hx | hx
        · exact h.outputs x hx
        · rw [List.mem_singleton.1 hx]; exact hp
      · intro x hx
        dsimp only at hx
        split at hx
        · rcases List.mem_append.1 hx with hx | hx
          · exact h.consents x hx
          · rw [List.mem_singleton.1 hx]; exact hp
        · exact h.consents x hx
  | deliver ok =>
    have hout : ∀ x ∈ s.neg.outputs.drop 1, From H x.1 := fun x hx => h.outputs x (List.mem_of_mem_drop hx)
    unfold System.step
    cases ho : s.neg.outputs with
    | nil =>
      simp only [System.engineOp, ho, Option.elim]
      exact ⟨h.good, h.trig, h.pending, h.disk, h.queue, nofun, h.consents⟩
    | cons x rest =>
      obtain ⟨p, b⟩ := x
      rw [ho] at hout
      cases b with
      | true =>
        simp only [System.engineOp, ho, Option.elim]
        obtain ⟨a1, a2, a3, a4, _⟩ := h.apply (.approved p ok) (by intro _ _ _ ec' e; rcases e with e | e <;> cases e)
        exact ⟨a1, a2, a3, a4, h.queue, hout, h.consents⟩
      | false =>
        simp only [System.engineOp, ho, Option.elim]
        obtain ⟨a1, a2, a3, a4, _⟩ := h.apply (.rejected p) (by intro _ _ _ ec' e; rcases e with e | e <;> cases e)
        exact ⟨a1, a2, a3, a4, h.queue, hout, h.consents⟩

theorem Origin.mono {H K : List EngineCfg} (hk : ∀ ec ∈ H, ec ∈ K) {p : Pending} (h : From H p) : From K p := by
  obtain ⟨ec, h1, c, h2, a, h3, h4, h5⟩ := h
  exact ⟨ec, hk ec h1, c, h2, a, h3, h4, fun t ht => ⟨(h5 t ht).1, by
    obtain ⟨ec', h6, h7⟩ := (h5 t ht).2; exact ⟨ec', hk ec' h6, h7⟩⟩⟩

end Verif.Wf

namespace Verif.Flow.Consent

open Verif.Wf (System SysOp EngineCfg Pending From Origin Consent)
open Verif.Upload (BufId TM Entry UpResult startAll_spec)

/-! ### Names -/

theorem num_inj : ∀ {a b : List Char}, num a = num b → a = b
  | [], [], _ => rfl
  | [], c :: l, h => by simp [num] at h
  | c :: l, [], h => by simp [num] at h
  | c :: l, d :: m, h => by
    have hc : c.toNat < 4294967296 := c.val.toNat_lt
    have hd : d.toNat < 4294967296 := d.val.toNat_lt
    simp only [num] at h
    have h1 : num l = num m := by omega
    have h2 : c.toNat = d.toNat := by omega
    rw [num_inj h1, Char.ext (UInt32.toNat_inj.1 h2)]

theorem code_inj {a b : String} (h : code a = code b) : a = b := String.toList_inj.1 (num_inj h)

/-! ### Single steps -/

/-- A request is backed: the server has sent it, or has agreed to the action for these buffers. -/
def Backed (orders : List (List String)) (consents : List Pending) (j : Job) : Prop :=
  match j.src with
  | .server => j.buffers ∈ orders
  | .engine a => ∃ p ∈ consents, p.id = a ∧ p.triggers = j.buffers

theorem Backed.mono {o o' : List (List String)} {c c' : List Pending} (ho : ∀ x ∈ o, x ∈ o') (hc : ∀ x ∈ c, x ∈ c') {j : Job}
    (h : Backed o c j) : Backed o' c' j := by
  obtain ⟨src, bs⟩ := j
  cases src with
  | server => exact ho _ h
  | engine a => obtain ⟨p, h1, h2⟩ := h; exact ⟨p, hc p h1, h2⟩

theorem consents_mono (s : System) (op : SysOp) : ∀ p ∈ s.consents, p ∈ (s.step op).consents := by
  intro p hp
  cases op with
  | negotiate r a =>
    dsimp only [System.step]
    split
    · exact hp
    · dsimp only
      split
      · exact List.mem_append_left _ hp
      · exact hp
  | _ => exact hp

/-- Only a request starts an upload of a buffer. -/
theorem task_own {t : TF} {e : TEv} (he : ownEv e = true) (h : (t.step e).task.isSome) : t.task.isSome := by
  cases e with
  | request w k => cases he
  | die => cases he
  | write x => dsimp only [TF.step] at h; split at h <;> exact h
  | move k => dsimp only [TF.step] at h; split at h <;> exact h
  | read =>
    dsimp only [TF.step] at h
    split at h
    · rename_i t' ht; rw [ht]; rfl
    · exact h
  | readError =>
    dsimp only [TF.step] at h
    split at h
    · rename_i t' ht; rw [ht]; rfl
    · exact h
  | result r =>
    dsimp only [TF.step] at h
    split at h
    · rename_i t' ht; rw [ht]; rfl
    · exact h

/-- What a buffer counts as uploaded is what its task has given to the service. -/
theorem uploads_given (t : TF) (e : TEv) : (t.step e).uploads.map (·.1) = t.uploads.map (·.1) ++ (given t e).toList := by
  have hread : ∀ k, (t.read k).uploads = t.uploads := by
    intro k
    unfold TF.read
    split
    · split <;> rfl
    · split
      · rfl
      · dsimp only; split <;> rfl
  cases e with
  | write x => dsimp only [TF.step, given]; split <;> simp
  | move k => dsimp only [TF.step, given]; split <;> simp
  | request w k => dsimp only [TF.step, given]; split <;> simp
  | read =>
    dsimp only [TF.step, given]
    split
    · split
      · rw [hread]; simp
      · simp
    · simp
  | readError =>
    dsimp only [TF.step, given]
    split
    · split <;> simp
    · simp
  | result r =>
    dsimp only [TF.step, given]
    split
    · split <;> simp_all
    · simp_all
  | die => simp [TF.step, given]

def Ev.cfgs : Ev → List EngineCfg
  | .wf op => op.cfgs
  | .process _ _ _ ec => [ec]
  | .engine _ _ _ ec => [ec]
  | _ => []

structure Inv (H : List EngineCfg) (s : C) : Prop where
  origin : Origin H s.wf
  consent : Consent s.wf
  tm : s.up.Inv
  chan : ∀ x ∈ s.chan, ∃ p ∈ s.wf.consents, p.id = x.1 ∧ p.triggers = x.2
  trig : ∀ j ∈ s.trig, Backed s.orders s.wf.consents j
  jobs : ∀ j ∈ s.jobs, Backed s.orders s.wf.consents j
  len : s.jobs.length = s.up.requests
  running : ∀ x ∈ s.up.running, ∃ j b, s.jobs[x.1]? = some j ∧ b ∈ j.buffers ∧ x.2 = code b
  task : ∀ b, (s.bufs b).task.isSome → ∃ r, (r, code b) ∈ s.up.running
  sent : ∀ x ∈ s.sent, ∃ j, x.2.2 = some j ∧ x.1 ∈ j.buffers ∧ Backed s.orders s.wf.consents j

theorem Inv.init (H : List EngineCfg) : Inv H {} where
  origin := ⟨Verif.Wf.Good.init, nofun, nofun, nofun, nofun, nofun, nofun⟩
  consent := ⟨nofun, nofun⟩
  tm := TM.inv_init
  chan := nofun
  trig := nofun
  jobs := nofun
  len := rfl
  running := nofun
  task := fun b h => by cases h
  sent := nofun

/-- Steps of the engine and its negotiator. -/
theorem Inv.wf {H : List EngineCfg} {s : C} (h : Inv H s) (op : SysOp) (hc : ∀ ec ∈ op.cfgs, ec ∈ H) :
    Inv H { s with wf := s.wf.step op } where
  origin := h.origin.step op hc
  consent := h.consent.step op
  tm := h.tm
  chan := fun x hx => by obtain ⟨p, h1, h2⟩ := h.chan x hx; exact ⟨p, consents_mono s.wf op p h1, h2⟩
  trig := fun j hj => (h.trig j hj).mono (fun _ hx => hx) (consents_mono s.wf op)
  jobs := fun j hj => (h.jobs j hj).mono (fun _ hx => hx) (consents_mono s.wf op)
  len := h.len
  running := h.running
  task := h.task
  sent := fun x hx => by
    obtain ⟨j, h1, h2, h3⟩ := h.sent x hx
    exact ⟨j, h1, h2, h3.mono (fun _ hx => hx) (consents_mono s.wf op)⟩

theorem requests_same (s : TM) (e : Upload.TEv) (he : ∀ ids bad, e ≠ .trigger ids bad) : (s.step e).requests = s.requests := by
  cases e with
  | trigger ids bad => exact absurd rfl (he ids bad)
  | _ => dsimp only [TM.step]; (repeat' split) <;> rfl

/-- Steps of the upload manager that keep the running uploads. -/
theorem Inv.other {H : List EngineCfg} {s : C} (h : Inv H s) (e : Upload.TEv) (he : ∀ ids bad, e ≠ .trigger ids bad)
    (hr : (s.up.step e).running = s.up.running) : Inv H { s with up := s.up.step e } where
  origin := h.origin
  consent := h.consent
  tm := h.tm.step e
  chan := h.chan
  trig := h.trig
  jobs := h.jobs
  len := h.len.trans (requests_same _ _ he).symm
  running := fun x hx => h.running x (by rw [← hr]; exact hx)
  task := fun b hb => by
    obtain ⟨r, hx⟩ := h.task b hb
    exact ⟨r, by show (r, code b) ∈ (s.up.step e).running; rw [hr]; exact hx⟩
  sent := h.sent

theorem finish_running (s : TM) (r b : Nat) : (s.step (.finish r b)).running = s.running.erase (r, b) := by
  unfold TM.step
  split <;> rfl

theorem Inv.step {H : List EngineCfg} {s : C} (h : Inv H s) (e : Ev) (hc : ∀ ec ∈ e.cfgs, ec ∈ H) : Inv H (s.step e) := by
  cases e with
  | wf op =>
    cases op with
    | start limit readable oks ec => exact h
    | deliver ok => exact h
    | update ec => exact h.wf _ hc
    | log l d v => exact h.wf _ hc
    | flushed id => exact h.wf _ hc
    | persist d o => exact h.wf _ hc
    | negotiate r a => exact h.wf _ hc
  | deliver =>
    have h' := h.wf (.deliver (decide (s.chan.length < 10))) nofun
    refine { h' with chan := ?_ }
    intro x hx
    rcases List.mem_append.1 hx with hx | hx
    · exact h'.chan x hx
    · exact h'.consent.requests x (List.mem_of_mem_drop hx)
  | process limit readable oks ec =>
    have h' := h.wf (.start limit readable oks ec) hc
    exact { h' with tm := TM.inv_init, chan := nofun, trig := nofun, jobs := nofun, len := rfl, running := nofun
                    task := fun b hb => by cases hb }
  | engine limit readable oks ec =>
    exact { h.wf (.start limit readable oks ec) hc with chan := nofun }
  | pass =>
    show Inv H (match s.chan with | [] => s | x :: q => _)
    cases hq : s.chan with
    | nil => exact h
    | cons x q =>
      have hch : ∀ y ∈ q, ∃ p ∈ s.wf.consents, p.id = y.1 ∧ p.triggers = y.2 := fun y hy => h.chan y (by rw [hq]; exact List.mem_cons_of_mem _ hy)
      dsimp only
      split
      · refine { h with chan := hch, trig := ?_ }
        intro j hj
        rcases List.mem_append.1 hj with hj | hj
        · exact h.trig j hj
        · rw [List.mem_singleton.1 hj]
          exact h.chan x (by rw [hq]; exact List.mem_cons_self)
      · exact { h with chan := hch }
  | server bs =>
    have ho : ∀ x ∈ s.orders, x ∈ s.orders ++ [bs] := fun x hx => List.mem_append_left _ hx
    have hs : ∀ x ∈ s.sent, ∃ j, x.2.2 = some j ∧ x.1 ∈ j.buffers ∧ Backed (s.orders ++ [bs]) s.wf.consents j := fun x hx => by
      obtain ⟨j, h1, h2, h3⟩ := h.sent x hx
      exact ⟨j, h1, h2, h3.mono ho fun _ hx => hx⟩
    show Inv H (if _ then _ else _)
    split
    · refine { h with trig := ?_, jobs := fun j hj => (h.jobs j hj).mono ho fun _ hx => hx, sent := hs }
      intro j hj
      rcases List.mem_append.1 hj with hj | hj
      · exact (h.trig j hj).mono ho fun _ hx => hx
      · rw [List.mem_singleton.1 hj]
        exact List.mem_append_right _ (List.mem_singleton.2 rfl)
    · exact h
  | take bad w k =>
    show Inv H (match s.trig with | [] => s | j :: rest => _)
    cases hq : s.trig with
    | nil => exact h
    | cons j rest =>
      dsimp only
      split
      · exact h
      · rename_i hd
        have hd : s.up.dead = false := by simpa using hd
        obtain ⟨new, a1, _, _, _, _, _, _, a8, _⟩ := startAll_spec s.up.requests (bad.map code) (j.buffers.map code) s.up h.tm.nodup h.tm.perm
        have hrun : (s.up.step (.trigger (j.buffers.map code) (bad.map code))).running = s.up.running ++ new.map fun b => (s.up.requests, b) := by
          unfold TM.step
          rw [if_neg (by rw [hd]; simp)]
          exact a1
        have hreq : (s.up.step (.trigger (j.buffers.map code) (bad.map code))).requests = s.up.requests + 1 := by
          unfold TM.step
          rw [if_neg (by rw [hd]; simp)]
        have hlt : ∀ x ∈ s.up.running, x.1 < s.jobs.length := fun x hx => by rw [h.len]; exact h.tm.fresh x hx
        refine { h with tm := h.tm.step (.trigger (j.buffers.map code) (bad.map code)), trig := ?_, jobs := ?_, len := ?_, running := ?_, task := ?_ }
        · intro x hx
          dsimp only at hx
          split at hx
          · cases hx
          · exact h.trig x (by rw [hq]; exact List.mem_cons_of_mem _ hx)
        · intro x hx
          rcases List.mem_append.1 hx with hx | hx
          · exact h.jobs x hx
          · rw [List.mem_singleton.1 hx]; exact h.trig j (by rw [hq]; exact List.mem_cons_self)
        · show (s.jobs ++ [j]).length = _
          rw [hreq, List.length_append, h.len]; rfl
        · intro x hx
          dsimp only at hx
          rw [hrun] at hx
          rcases List.mem_append.1 hx with hx | hx
          · obtain ⟨j', b, h1, h2⟩ := h.running x hx
            refine ⟨j', b, ?_, h2⟩
            show (s.jobs ++ [j])[x.1]? = some j'
            rw [List.getElem?_append_left (hlt x hx)]; exact h1
          · obtain ⟨n, hn, rfl⟩ := List.mem_map.1 hx
            obtain ⟨b, hb, e⟩ := List.mem_map.1 (a8 n hn).1
            refine ⟨j, b, ?_, hb, e.symm⟩
            show (s.jobs ++ [j])[s.up.requests]? = some j
            rw [← h.len]; simp
        · intro b hb
          dsimp only at hb ⊢
          by_cases hm : (s.up.requests, code b) ∈ (s.up.step (.trigger (j.buffers.map code) (bad.map code))).running
          · exact ⟨_, hm⟩
          · rw [if_neg hm] at hb
            obtain ⟨r, hr⟩ := h.task b hb
            exact ⟨r, by rw [hrun]; exact List.mem_append_left _ hr⟩
  | created b => exact h.other _ (by intros; nofun) (by unfold TM.step; split <;> rfl)
  | removed b => exact h.other _ (by intros; nofun) (by unfold TM.step; split <;> rfl)
  | notify b => exact h.other _ (by intros; nofun) (by unfold TM.step; split; rfl; dsimp only; split <;> rfl)
  | respond r => exact h.other _ (by intros; nofun) (by unfold TM.step; split; rfl; dsimp only; split <;> rfl)
  | stop =>
    exact { h with tm := ⟨h.tm.nodup, h.tm.perm, h.tm.fresh, h.tm.opn, nofun⟩, trig := nofun }
  | buf b e =>
    show Inv H (if _ then _ else _)
    split
    case isFalse => exact h
    rename_i hown
    have hmem : ∀ x, s.up.running.find? (fun x => decide (x.2 = code b)) = some x → x ∈ s.up.running ∧ x.2 = code b := fun x hx =>
      ⟨List.mem_of_find?_eq_some hx, by simpa using List.find?_some hx⟩
    have hup : (s.after b (s.bufs b) ((s.bufs b).step e)).Inv := by
      unfold C.after
      split
      · split
        · exact h.tm.step _
        · exact h.tm
      · exact h.tm
    have hreq : (s.after b (s.bufs b) ((s.bufs b).step e)).requests = s.up.requests := by
      unfold C.after
      split
      · split
        · exact requests_same _ _ (by intros; nofun)
        · rfl
      · rfl
    have hsub : ∀ x ∈ (s.after b (s.bufs b) ((s.bufs b).step e)).running, x ∈ s.up.running := by
      intro x hx
      unfold C.after at hx
      split at hx
      · split at hx
        · rw [finish_running] at hx; exact List.mem_of_mem_erase hx
        · exact hx
      · exact hx
    have hkeep : ∀ x ∈ s.up.running, x.2 ≠ code b ∨ ((s.bufs b).step e).task.isSome →
        x ∈ (s.after b (s.bufs b) ((s.bufs b).step e)).running := by
      intro x hx hor
      unfold C.after
      split
      · rename_i hcond
        simp only [Bool.and_eq_true, Option.isNone_iff_eq_none] at hcond
        split
        · rename_i y hy
          rw [finish_running]
          rcases hor with hor | hor
          · exact (List.mem_erase_of_ne (fun e => hor (by rw [e]; exact (hmem y hy).2))).2 hx
          · rw [hcond.2] at hor; cases hor
        · exact hx
      · exact hx
    refine { h with tm := hup, len := h.len.trans hreq.symm, running := fun x hx => h.running x (hsub x hx), task := ?_, sent := ?_ }
    · intro b' hb'
      dsimp only at hb' ⊢
      by_cases hbb : b' = b
      · subst hbb
        rw [if_pos rfl] at hb'
        obtain ⟨r, hr⟩ := h.task b' (task_own hown hb')
        exact ⟨r, hkeep _ hr (Or.inr hb')⟩
      · rw [if_neg hbb] at hb'
        obtain ⟨r, hr⟩ := h.task b' hb'
        exact ⟨r, hkeep _ hr (Or.inl fun e => hbb (code_inj e))⟩
    · intro x hx
      rcases List.mem_append.1 hx with hx | hx
      · exact h.sent x hx
      · obtain ⟨logs, hl, rfl⟩ := List.mem_map.1 hx
        have htask : (s.bufs b).task.isSome := by
          unfold given at hl
          split at hl
          · split at hl
            · rename_i ht; rw [ht]; rfl
            · simp at hl
          · simp at hl
        obtain ⟨r, hr⟩ := h.task b htask
        obtain ⟨y, hy⟩ : ∃ y, s.up.running.find? (fun x => decide (x.2 = code b)) = some y := by
          have := List.find?_isSome (xs := s.up.running) (p := fun x => decide (x.2 = code b))
          exact Option.isSome_iff_exists.1 (this.2 ⟨_, hr, by simp⟩)
        obtain ⟨h1, h2⟩ := hmem y hy
        obtain ⟨j, b', h3, h4, h5⟩ := h.running y h1
        refine ⟨j, ?_, ?_, h.jobs j (List.mem_of_getElem? h3)⟩
        · show s.forJob b = some j
          unfold C.forJob
          rw [hy]; exact h3
        · rw [code_inj (h2.symm.trans h5)]; exact h4

theorem Inv.run {H : List EngineCfg} : ∀ (es : List Ev) {s : C}, Inv H s → (∀ e ∈ es, ∀ ec ∈ e.cfgs, ec ∈ H) → Inv H (s.run es)
  | [], _, h, _ => h
  | e :: es, s, h, hc => Inv.run es (h.step e (hc e List.mem_cons_self)) fun x hx => hc x (List.mem_cons_of_mem _ hx)

theorem orders_run : ∀ (es : List Ev) (s : C), ∀ x ∈ (s.run es).orders, x ∈ s.orders ∨ Ev.server x ∈ es
  | [], _, x, hx => Or.inl hx
  | e :: es, s, x, hx => by
    rcases orders_run es (s.step e) x hx with h | h
    · have key : x ∈ s.orders ∨ e = .server x := by
        cases e with
        | server bs =>
          have h : x ∈ (if _ then _ else _ : C).orders := h
          split at h
          · rcases List.mem_append.1 h with h | h
            · exact Or.inl h
            · right; rw [List.mem_singleton.1 h]
          · exact Or.inl h
        | wf op => left; cases op <;> exact h
        | pass => left; unfold C.step at h; dsimp only at h; (repeat' split at h) <;> exact h
        | take bad w k => left; unfold C.step at h; dsimp only at h; (repeat' split at h) <;> exact h
        | buf b e => left; unfold C.step at h; dsimp only at h; (repeat' split at h) <;> exact h
        | _ => exact Or.inl h
      rcases key with h | h
      · exact Or.inl h
      · exact Or.inr (h ▸ List.mem_cons_self)
    · exact Or.inr (List.mem_cons_of_mem _ h)

theorem consents_new (s : System) (op : SysOp) (p : Pending) (h : p ∈ (s.step op).consents) :
    p ∈ s.consents ∨ ∃ r, op = .negotiate r .yes ∧ s.queue.head? = some p := by
  cases op with
  | negotiate r a =>
    dsimp only [System.step] at h
    split at h
    · exact Or.inl h
    · rename_i q rest hq
      dsimp only at h
      split at h
      · rename_i hy
        rcases List.mem_append.1 h with h | h
        · exact Or.inl h
        · right
          rw [List.mem_singleton.1 h, hy.2]
          exact ⟨r, rfl, by rw [hq]; rfl⟩
      · exact Or.inl h
  | _ => exact Or.inl h

theorem consents_run (p : Pending) : ∀ (es : List Ev) (s : C), p ∈ (s.run es).wf.consents → p ∈ s.wf.consents ∨
    ∃ es1 r es2, es = es1 ++ Ev.wf (.negotiate r .yes) :: es2 ∧ (s.run es1).wf.queue.head? = some p
  | [], _, h => Or.inl h
  | e :: es, s, h => by
    rcases consents_run p es (s.step e) h with h | ⟨es1, r, es2, h1, h2⟩
    · have key : p ∈ s.wf.consents ∨ ∃ r, e = .wf (.negotiate r .yes) ∧ s.wf.queue.head? = some p := by
        cases e with
        | wf op =>
          have : p ∈ s.wf.consents ∨ ∃ r, op = .negotiate r .yes ∧ s.wf.queue.head? = some p := by
            cases op with
            | start limit readable oks ec => exact Or.inl h
            | deliver ok => exact Or.inl h
            | update ec => exact consents_new s.wf _ p h
            | log l d v => exact consents_new s.wf _ p h
            | flushed id => exact consents_new s.wf _ p h
            | persist d o => exact consents_new s.wf _ p h
            | negotiate r a => exact consents_new s.wf _ p h
          rcases this with h | ⟨r, h1, h2⟩
          · exact Or.inl h
          · exact Or.inr ⟨r, by rw [h1], h2⟩
        | pass => left; dsimp only [C.step] at h; (repeat' split at h) <;> exact h
        | server bs => left; dsimp only [C.step] at h; (repeat' split at h) <;> exact h
        | take bad w k => left; dsimp only [C.step] at h; (repeat' split at h) <;> exact h
        | buf b e => left; dsimp only [C.step] at h; (repeat' split at h) <;> exact h
        | _ => exact Or.inl h
      rcases key with h | ⟨r, h1, h2⟩
      · exact Or.inl h
      · exact Or.inr ⟨[], r, es, by rw [h1]; rfl, h2⟩
    · exact Or.inr ⟨e :: es1, r, es2, by rw [h1]; rfl, h2⟩

/-- **C121.** Whatever is uploaded from a trigger buffer, in any of the processes: either the server has sent a flush request naming the buffer, or
the server has said yes to the negotiator about an action which names the buffer and comes from a workflow that the server has configured. -/
theorem C121_consent (es : List Ev) (b : String) (logs : List Entry) (j : Option Job) (hx : (b, logs, j) ∈ (({} : C).run es).sent) :
    (∃ bs, Ev.server bs ∈ es ∧ b ∈ bs) ∨
    ∃ es1 r es2 p, es = es1 ++ Ev.wf (.negotiate r .yes) :: es2 ∧ (({} : C).run es1).wf.queue.head? = some p ∧
      b ∈ p.triggers ∧ From (es.flatMap (·.cfgs)) p := by
  have h : Inv (es.flatMap (·.cfgs)) (({} : C).run es) := Inv.run es (Inv.init _) fun e he ec hec => List.mem_flatMap.2 ⟨e, he, hec⟩
  obtain ⟨⟨src, bs⟩, _, h2, h3⟩ := h.sent _ hx
  cases src with
  | server =>
    left
    rcases orders_run es {} bs h3 with h' | h'
    · cases h'
    · exact ⟨bs, h', h2⟩
  | engine a =>
    obtain ⟨p, hp, _, e⟩ := h3
    rcases consents_run p es {} hp with h' | ⟨es1, r, es2, h4, h5⟩
    · cases h'
    · exact Or.inr ⟨es1, r, es2, p, h4, h5, by rw [e]; exact h2, h.origin.consents p hp⟩

/-- **C121.** Every upload task belongs to a request that the upload manager is still waiting for: none goes on after the process, or
after the manager took it to be over. -/
theorem C121_tasks (es : List Ev) (b : String) (h : ((({} : C).run es).bufs b).task.isSome) :
    ∃ (r : Nat) (j : Job), (r, code b) ∈ (({} : C).run es).up.running ∧ (({} : C).run es).jobs[r]? = some j ∧ b ∈ j.buffers := by
  have hi := Inv.run (H := es.flatMap (·.cfgs)) es (Inv.init _) (fun e he ec hec => List.mem_flatMap.2 ⟨e, he, hec⟩)
  obtain ⟨r, hr⟩ := hi.task b h
  obtain ⟨j, b', h1, h2, h3⟩ := hi.running _ hr
  refine ⟨r, j, hr, h1, ?_⟩
  have : b = b' := code_inj h3
  rw [this]; exact h2

/-- Every upload of a trigger buffer is among those of `C121_consent`. -/
theorem C121_all (es : List Ev) (b : String) :
    ((({} : C).run es).sent.filter fun x => decide (x.1 = b)).map (·.2.1) = ((({} : C).run es).bufs b).uploads.map (·.1) := by
  have key : ∀ (es : List Ev) (s : C), (s.sent.filter fun x => decide (x.1 = b)).map (·.2.1) = (s.bufs b).uploads.map (·.1) →
      ((s.run es).sent.filter fun x => decide (x.1 = b)).map (·.2.1) = ((s.run es).bufs b).uploads.map (·.1) := by
    intro es
    induction es with
    | nil => intro s h; exact h
    | cons e es ih =>
      intro s h
      refine ih (s.step e) ?_
      cases e with
      | wf op => cases op <;> exact h
      | pass => unfold C.step; dsimp only; (repeat' split) <;> exact h
      | server bs => unfold C.step; dsimp only; split <;> exact h
      | take bad w k =>
        unfold C.step
        dsimp only
        split
        · exact h
        · split
          · exact h
          · dsimp only
            rw [h]
            split
            · rw [uploads_given]; simp [given]
            · rfl
      | process limit readable oks ec =>
        show (s.sent.filter fun x => decide (x.1 = b)).map (·.2.1) = ((s.bufs b).step .die).uploads.map (·.1)
        rw [uploads_given]
        simpa [given] using h
      | buf b' e =>
        unfold C.step
        dsimp only
        split
        · dsimp only
          rw [List.filter_append, List.map_append, h]
          by_cases hb : b = b'
          · subst hb
            rw [if_pos rfl, uploads_given]
            congr 1
            cases given (s.bufs b) e <;> simp
          · rw [if_neg hb]
            have : b' ≠ b := fun e => hb e.symm
            cases given (s.bufs b') e <;> simp [this]
        · exact h
      | _ => exact h
  exact key es {} rfl

/-- Nothing disturbs the upload of `b`: the process goes on, the buffer can be read, and nobody is told yet that it is through. -/
def Calm (b : String) : Ev → Prop
  | .process .. => False
  | .notify c => c ≠ b
  | .buf c e => c = b → Undisturbed e
  | _ => True

theorem active_step (u : TM) (hu : u.Inv) (e : Upload.TEv) (n : Nat) (hn : n ∈ u.active) (he : e ≠ .notify n) : n ∈ (u.step e).active := by
  cases e with
  | trigger ids bad =>
    obtain ⟨new, _, a2, _⟩ := startAll_spec u.requests bad ids u hu.nodup hu.perm
    dsimp only [TM.step]
    split
    · exact hn
    · show n ∈ (TM.startAll u.requests bad ids u).active
      rw [a2]; exact List.mem_append_left _ hn
  | notify m =>
    dsimp only [TM.step]
    split
    · exact hn
    · split
      · exact (List.mem_erase_of_ne (fun e => he (by rw [e]))).2 hn
      · exact hn
  | _ => dsimp only [TM.step]; (repeat' split) <;> exact hn

theorem not_restarted {u : TM} (hu : u.Inv) (ids bad : List Nat) {n : Nat} (hn : n ∈ u.active) :
    (u.requests, n) ∉ (u.step (.trigger ids bad)).running := by
  intro hx
  have old : (u.requests, n) ∉ u.running := fun h => Nat.lt_irrefl _ (hu.fresh _ h)
  obtain ⟨new, a1, _, _, _, _, _, _, a8, _⟩ := startAll_spec u.requests bad ids u hu.nodup hu.perm
  dsimp only [TM.step] at hx
  split at hx
  · exact old hx
  · have hx : (u.requests, n) ∈ (TM.startAll u.requests bad ids u).running := hx
    rw [a1] at hx
    rcases List.mem_append.1 hx with hx | hx
    · exact old hx
    · obtain ⟨m, hm, e⟩ := List.mem_map.1 hx
      cases e
      exact (a8 _ hm).2.2.1 hn

/-- Meanwhile the buffer sees its own events only. -/
theorem calm_run {H : List EngineCfg} (b : String) : ∀ (es : List Ev) (s : C), Inv H s → (∀ e ∈ es, ∀ ec ∈ e.cfgs, ec ∈ H) → code b ∈ s.up.active →
    (∀ e ∈ es, Calm b e) → ∃ xs, (∀ x ∈ xs, Undisturbed x) ∧ (s.run es).bufs b = (s.bufs b).run xs
  | [], s, _, _, _, _ => ⟨[], nofun, rfl⟩
  | e :: es, s, h, hH, ha, hc => by
    have key : code b ∈ (s.step e).up.active ∧ ∃ xs, (∀ x ∈ xs, Undisturbed x) ∧ (s.step e).bufs b = (s.bufs b).run xs := by
      have he := hc e List.mem_cons_self
      cases e with
      | wf op => exact ⟨by cases op <;> exact ha, [], nofun, by cases op <;> rfl⟩
      | process limit readable oks ec => exact he.elim
      | pass =>
        refine ⟨?_, [], nofun, ?_⟩ <;> (dsimp only [C.step]; (repeat' split)) <;> first | exact ha | rfl
      | server bs =>
        refine ⟨?_, [], nofun, ?_⟩ <;> (dsimp only [C.step]; (repeat' split)) <;> first | exact ha | rfl
      | take bad w k =>
        dsimp only [C.step]
        split
        · exact ⟨ha, [], nofun, rfl⟩
        · split
          · exact ⟨ha, [], nofun, rfl⟩
          · refine ⟨active_step s.up h.tm _ _ ha (by nofun), [], nofun, ?_⟩
            dsimp only
            rw [if_neg (not_restarted h.tm _ _ ha)]; rfl
      | created c => exact ⟨active_step s.up h.tm _ _ ha (by nofun), [], nofun, rfl⟩
      | removed c => exact ⟨active_step s.up h.tm _ _ ha (by nofun), [], nofun, rfl⟩
      | respond r => exact ⟨active_step s.up h.tm _ _ ha (by nofun), [], nofun, rfl⟩
      | notify c =>
        refine ⟨active_step s.up h.tm _ _ ha ?_, [], nofun, rfl⟩
        intro e
        injection e with e
        exact he (code_inj e)
      | buf c e =>
        dsimp only [C.step]
        split
        · refine ⟨?_, ?_⟩
          · show code b ∈ (s.after c (s.bufs c) ((s.bufs c).step e)).active
            unfold C.after
            split
            · split
              · exact active_step s.up h.tm _ _ ha (by nofun)
              · exact ha
            · exact ha
          · dsimp only
            by_cases hb : b = c
            · subst hb
              rw [if_pos rfl]
              exact ⟨[e], fun x hx => by rw [List.mem_singleton.1 hx]; exact he rfl, rfl⟩
            · rw [if_neg hb]
              exact ⟨[], nofun, rfl⟩
        · exact ⟨ha, [], nofun, rfl⟩
      | _ => exact ⟨ha, [], nofun, rfl⟩
    obtain ⟨ha', xs, h1, h2⟩ := key
    obtain ⟨ys, h3, h4⟩ := calm_run b es (s.step e) (h.step e (hH e List.mem_cons_self)) (fun x hx => hH x (List.mem_cons_of_mem _ hx)) ha'
      fun x hx => hc x (List.mem_cons_of_mem _ hx)
    refine ⟨xs ++ ys, fun x hx => (List.mem_append.1 hx).elim (h1 x) (h3 x), ?_⟩
    rw [TF.run_append, ← h2]
    exact h4

/-- A buffer of the composed system is a buffer of C84. -/
theorem bufs_run (b : String) : ∀ (es : List Ev) (s : C), (∃ xs, s.bufs b = TF.init.run xs) → ∃ xs, (s.run es).bufs b = TF.init.run xs
  | [], _, h => h
  | e :: es, s, h => by
    refine bufs_run b es (s.step e) ?_
    have one : ∀ x, ∃ xs, (s.bufs b).step x = TF.init.run xs := by
      intro x
      obtain ⟨xs, h⟩ := h
      exact ⟨xs ++ [x], by rw [TF.run_append, ← h]; rfl⟩
    cases e with
    | wf op => cases op <;> exact h
    | process limit readable oks ec => exact one .die
    | pass => dsimp only [C.step]; (repeat' split) <;> exact h
    | server bs => dsimp only [C.step]; split <;> exact h
    | take bad w k =>
      dsimp only [C.step]
      split
      · exact h
      · split
        · exact h
        · dsimp only
          split
          · exact one _
          · exact h
    | buf c e =>
      dsimp only [C.step]
      split
      · dsimp only
        by_cases hb : b = c
        · subst hb; rw [if_pos rfl]; exact one _
        · rw [if_neg hb]; exact h
      · exact h
    | _ => exact h

theorem run_append (a b : List Ev) (s : C) : s.run (a ++ b) = (s.run a).run b := List.foldl_append

/-- **C121.** And what has been agreed to is uploaded: when the upload manager takes a request naming a known buffer that is not being uploaded
already, then once the task of the buffer is through the service has got exactly what the buffer held at that moment (apart from what was overwritten
while it was written to the file, and what is too old), whatever the application logs, the workflows do and the server asks meanwhile. -/
theorem C121_complete (es0 es : List Ev) (b : String) (j : Job) (rest : List Job) (w : String → Option Int) (k : String → Nat) :
    let s := ({} : C).run es0
    let t := (s.step (.take [] w k)).run es
    s.trig = j :: rest → s.up.dead = false → b ∈ j.buffers → code b ∈ s.up.known → code b ∉ s.up.active →
    (∀ e ∈ es, Calm b e) → (t.bufs b).task = none →
    ∃ new : List (List Entry),
      (t.sent.filter fun x => decide (x.1 = b)).map (·.2.1) = (s.sent.filter fun x => decide (x.1 = b)).map (·.2.1) ++ new ∧
      new.flatten = (((s.bufs b).file ++ (s.bufs b).vol).drop (k b)).filter fun e => !e.old (w b) := by
  intro s t hq hd hb hk ha hc ht
  let H := es0.flatMap (·.cfgs) ++ es.flatMap (·.cfgs)
  have hs : Inv H s := Inv.run es0 (Inv.init H) fun e he ec hec => List.mem_append_left _ (List.mem_flatMap.2 ⟨e, he, hec⟩)
  have h1 : Inv H (s.step (.take [] w k)) := hs.step _ nofun
  obtain ⟨new, a1, a2, _, _, _, _, _, _, a9⟩ := startAll_spec s.up.requests [] (j.buffers.map code) s.up hs.tm.nodup hs.tm.perm
  have hnew : code b ∈ new := (a9 fun _ _ _ _ => nofun).2 _ (List.mem_map.2 ⟨b, hb, rfl⟩) hk ha
  have hst : s.step (.take [] w k) = { s with
      up := s.up.step (.trigger (j.buffers.map code) []), jobs := s.jobs ++ [j]
      trig := if (s.up.step (.trigger (j.buffers.map code) [])).dead then [] else rest
      bufs := fun b => if (s.up.requests, code b) ∈ (s.up.step (.trigger (j.buffers.map code) [])).running then
        (s.bufs b).step (.request (w b) (k b)) else s.bufs b } := by
    dsimp only [C.step]
    rw [hq]
    dsimp only
    rw [if_neg (by rw [hd]; simp)]
    rfl
  have hup : s.up.step (.trigger (j.buffers.map code) []) = { TM.startAll s.up.requests [] (j.buffers.map code) s.up with
      requests := s.up.requests + 1
      open_ := if (TM.startAll s.up.requests [] (j.buffers.map code) s.up).dead then s.up.open_ else s.up.open_ ++ [s.up.requests] } := by
    unfold TM.step
    rw [if_neg (by rw [hd]; simp)]
  have hbuf : (s.step (.take [] w k)).bufs b = (s.bufs b).step (.request (w b) (k b)) := by
    rw [hst]
    dsimp only
    rw [if_pos]
    rw [hup]
    dsimp only
    rw [a1]
    exact List.mem_append_right _ (List.mem_map.2 ⟨_, hnew, rfl⟩)
  have hact : code b ∈ (s.step (.take [] w k)).up.active := by
    rw [hst]
    dsimp only
    rw [hup]
    dsimp only
    rw [a2]
    exact List.mem_append_right _ hnew
  obtain ⟨xs, hx1, hx2⟩ := calm_run b es _ h1 (fun e he ec hec => List.mem_append_right _ (List.mem_flatMap.2 ⟨e, he, hec⟩)) hact hc
  obtain ⟨ys, hy⟩ := bufs_run b es0 {} ⟨[], rfl⟩
  have hnone : (s.bufs b).task = none := by
    cases hn : (s.bufs b).task with
    | none => rfl
    | some x =>
      obtain ⟨r, hr⟩ := hs.task b (by rw [hn]; rfl)
      exact absurd (hs.tm.perm.mem_iff.2 (List.mem_append_left _ (List.mem_map.2 ⟨_, hr, rfl⟩))) ha
  have hfin : t.bufs b = ((TF.init.run ys).step (.request (w b) (k b))).run xs := by
    show ((s.step (.take [] w k)).run es).bufs b = _
    rw [hx2, hbuf, ← hy]
  obtain ⟨new', u1, u2, _⟩ := C84_complete ys (w b) (k b) xs hx1 (by rw [← hy]; exact hnone) (by rw [← hfin]; exact ht)
  refine ⟨new'.map (·.1), ?_, by rw [u2, ← hy]⟩
  have e1 := C121_all es0 b
  have e2 := C121_all (es0 ++ (.take [] w k :: es)) b
  rw [run_append] at e2
  have e2 : (t.sent.filter fun x => decide (x.1 = b)).map (·.2.1) = (t.bufs b).uploads.map (·.1) := e2
  rw [e2, hfin, u1, List.map_append, ← hy]
  congr 1
  exact e1.symm

namespace Ex
def line (n : Nat) : Entry := ⟨[n], none, ⟨100, 2⟩⟩
/-- the application logs, a workflow of the configuration asks for its trigger buffers, and the server agrees -/
def agreed : List Ev :=
  [.process 9 true [] ⟨[Verif.Wf.Ex.again], ["t", "u"], []⟩, .created "t", .buf "t" (.write (line 1)), .buf "t" (.move 0), .buf "t" (.write (line 2)),
    .wf (.log { session := "s", time := 0, hits := [1] } [] {}), .wf (.negotiate 2 .yes), .deliver, .pass]
/-- and the upload goes through -/
def through : List Ev :=
  [.buf "t" (.write (line 3)), .buf "t" .read, .buf "t" .read, .buf "t" (.result .success), .buf "t" .read, .buf "t" (.result .success)]
def taken : List Ev := .take [] (fun _ => none) (fun _ => 0) :: through
/-- the server asks by itself -/
def asked : List Ev := [.process 9 true [] ⟨[], ["t"], []⟩, .created "t", .buf "t" (.write (line 1)), .server ["t", "x"]]
/-- the server refuses -/
def refused : List Ev :=
  [.process 9 true [] ⟨[Verif.Wf.Ex.again], ["t", "u"], []⟩, .created "t", .buf "t" (.write (line 1)),
    .wf (.log { session := "s", time := 0, hits := [1] } [] {}), .wf (.negotiate 0 .no), .deliver, .pass]
end Ex
example : ((({} : C).run (Ex.agreed ++ Ex.taken)).sent.map fun x => (x.1, x.2.1.map (·.data))) = [("t", [[1], [2]])] := by decide +kernel
example : ((({} : C).run (Ex.asked ++ Ex.taken)).sent.map fun x => (x.1, x.2.1.map (·.data))) = [("t", [[1]])] := by decide +kernel
example : (({} : C).run (Ex.refused ++ Ex.taken)).sent = [] := by decide +kernel
example : (({} : C).run Ex.agreed).trig = [⟨.engine "fl", ["t", "u"]⟩] ∧ (({} : C).run Ex.agreed).up.dead = false ∧
    code "t" ∈ (({} : C).run Ex.agreed).up.known ∧ code "t" ∉ (({} : C).run Ex.agreed).up.active ∧
    ((({} : C).run (Ex.agreed ++ Ex.taken)).bufs "t").task = none := by decide +kernel
example : ∀ e ∈ Ex.through, Calm "t" e := by simp [Ex.through, Calm, Undisturbed]
/-- A task under way, and none after the end of the process. -/
example : ((({} : C).run (Ex.agreed ++ Ex.taken.take 3)).bufs "t").task.isSome = true ∧
    (({} : C).run (Ex.agreed ++ Ex.taken.take 3)).up.running.map (·.2) = [code "t"] ∧
    ((({} : C).run (Ex.agreed ++ Ex.taken.take 3 ++ [.process 9 true [] ⟨[], ["t"], []⟩])).bufs "t").task.isSome = false := by decide +kernel
/-- Two uploads of one request: when that of `t` is through, that of `u` goes on, and is waited for. -/
example :
    let s := ({} : C).run ([.process 9 true [] ⟨[], ["t", "u"], []⟩, .created "t", .created "u", .buf "t" (.write (Ex.line 1)), .buf "u" (.write (Ex.line 2)),
      .server ["t", "u"], .take [] (fun _ => none) (fun _ => 0), .buf "u" .read, .buf "t" .read, .buf "t" .read, .buf "t" (.result .success), .buf "t" .read,
      .buf "t" (.result .success)])
    (s.bufs "t").task.isSome = false ∧ (s.bufs "u").task.isSome = true ∧ s.up.running.map (·.2) = [code "u"] := by decide +kernel

end Verif.Flow.Consent
