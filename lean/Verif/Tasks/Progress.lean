import Verif.Tasks.Props

/-!
# C71: where the tasks can end up
-/

namespace Verif.Tasks

/-- A triggered upload the upload manager waits for can make a step unless it needs the API task. -/
theorem closing_step (R : Nat) (s : St) (h : Inv s) (hst : Stuck R s) (t : Nat)
    (hu : s.u = .closing t) : UploadCycle s := by
  obtain ⟨ha, x, hx, hs⟩ := h.cls t hu
  have hcl := hst .uClosed rfl
  have hca := hst (.tCancel t) rfl
  have hpu := hst (.tPut t) rfl
  have hwa := hst (.tWake t) rfl
  simp only [step, hu, hx] at hcl hca hpu hwa
  have hne : ¬ (x.phase = .ended ∨ x.phase = .gone) := by
    intro hp; rw [if_pos hp] at hcl; simp at hcl
  rw [not_or] at hne
  have hk : x.kind = .trigger := by
    cases hk : x.kind with
    | trigger => rfl
    | _ => simp [cancellable, hs, hk, hne.1, hne.2] at hca
  refine ⟨ha, t, x, hu, hx, hk, ?_⟩
  cases hp : x.phase with
  | reading => exact absurd hp (h.trig t x hx hk)
  | sending m n =>
    right
    refine ⟨⟨m, n, rfl⟩, ?_⟩
    intro hd
    simp [hp, hd] at hpu
  | waiting m n => exact .inl ⟨m, n, rfl⟩
  | backoff m n => simp [hp] at hwa
  | ended => exact absurd hp hne.1
  | gone => exact absurd hp hne.2

/-- **C71 (partial).** When no task can make a step, every task waits for input from outside, or the
client was killed, or the API task is part of one of two circular waits: over a triggered upload of
a buffer that a configuration removes, or over a blocking call while a stats upload waits to be
sent.  Missing for the full claim: that the last two are never reached (they are, see below). -/
theorem C71_stuck_partial (R : Nat) (s : St) (hr : Reach R s) (hst : Stuck R s) :
    Quiet s ∨ s.killed = true ∨ UploadCycle s ∨ FlushCycle s := by
  have h := hr.inv
  cases hk : s.killed with
  | true => exact .inr (.inl rfl)
  | false =>
  -- the upload manager
  cases hu : s.u with
  | closing t => exact .inr (.inr (.inl (closing_step R s h hst t hu)))
  | idle =>
  have hev : s.evQ = none := by
    cases he : s.evQ with
    | none => rfl
    | some e => have := hst .uEvent rfl; simp [step, he, hu] at this
  have htr : s.trigQ = none := by
    cases he : s.trigQ with
    | none => rfl
    | some e => have := hst .uTrigger rfl; simp [step, he, hu] at this
  cases ha : s.a with
  | sendEvents evs ok =>
    cases evs with
    | nil => have := hst .acked rfl; simp [step, ha, hev, hu] at this
    | cons e es => have := hst .putEvent rfl; simp [step, ha, hev] at this
  | sendTrigger req => have := hst .putTrigger rfl; simp [step, ha, htr] at this
  | sendConfig =>
    right; right; right
    have h1 := hst .putConfig rfl
    have h2 := hst .takeConfig rfl
    have h3 := hst .takeFlush rfl
    have h4 := hst .fPut rfl
    simp only [step] at h1 h2 h3 h4
    have hcfg : s.cfgQ = true := by
      cases hc : s.cfgQ with
      | true => rfl
      | false => simp [ha, hc] at h1
    have hl : s.l = .flushing := by
      cases hl : s.l with
      | flushing => rfl
      | idle => simp [hl, hcfg] at h2
    have hf : s.f = .sending := by
      cases hf : s.f with
      | sending => rfl
      | idle => simp [hl, hf] at h3
    refine ⟨ha, hcfg, hl, hf, ?_⟩
    intro hd
    simp [hf, hd] at h4
  | idle =>
    left
    have hup : s.up = true := by
      cases hup : s.up with
      | true => rfl
      | false => have := hst .connect rfl; simp [step, ha, hup, hk] at this
    have hd : s.dataQ = none := by
      cases hd : s.dataQ with
      | none => rfl
      | some m => have := hst .drain rfl; simp [step, ha, hup, hd] at this
    have hsent : s.sent = [] := by
      cases hs : s.sent with
      | nil => rfl
      | cons m ms => have := hst (.answer m true) rfl; simp [step, ha, hup, hs] at this
    have hf : s.f = .idle := by
      cases hf : s.f with
      | idle => rfl
      | sending => have := hst .fPut rfl; simp [step, hf, hd] at this
    have hl : s.l = .idle := by
      cases hl : s.l with
      | idle => rfl
      | flushing => have := hst .takeFlush rfl; simp [step, hl, hf] at this
    have hcfg : s.cfgQ = false := by
      cases hc : s.cfgQ with
      | false => rfl
      | true => have := hst .takeConfig rfl; simp [step, hl, hc] at this
    have hrx : s.rx = .none := by
      cases hx : s.rx with
      | none => rfl
      | waiting => rcases h.rx hx with h1 | h1 <;> simp_all
      | done ok => have := hst .fResponse rfl; simp [step, hx, hf] at this
    refine ⟨ha, hup, hsent, hd, hev, htr, hcfg, hu, hl, hf, hrx, ?_⟩
    intro x hx
    obtain ⟨t, hx⟩ := List.getElem?_of_mem hx
    cases hp : x.phase with
    | reading => exact .inl rfl
    | gone => exact .inr rfl
    | sending m n => have := hst (.tPut t) rfl; simp [step, hx, hp, hd] at this
    | waiting m n => rcases h.wait t x m n hx hp with h1 | h1 <;> simp_all
    | backoff m n => have := hst (.tWake t) rfl; simp [step, hx, hp] at this
    | ended => have := hst (.uDone t) rfl; simp [step, hx, hp, hu] at this

/-! ## Without input the tasks make only so many steps -/

/-- How many steps a task standing there may still cause. -/
def phaseW (R : Nat) : Phase → Nat
  | .reading => 1
  | .sending m n => m * (5 * R + 5) + 5 * n + 5
  | .waiting m n => m * (5 * R + 5) + 5 * n + 2
  | .backoff m n => m * (5 * R + 5) + 5 * n + 6
  | .ended => 1
  | .gone => 0

theorem phaseW_reading (R : Nat) : phaseW R .reading = 1 := rfl
theorem phaseW_sending (R m n : Nat) :
    phaseW R (.sending m n) = m * (5 * R + 5) + 5 * n + 5 := rfl
theorem phaseW_waiting (R m n : Nat) :
    phaseW R (.waiting m n) = m * (5 * R + 5) + 5 * n + 2 := rfl
theorem phaseW_backoff (R m n : Nat) :
    phaseW R (.backoff m n) = m * (5 * R + 5) + 5 * n + 6 := rfl
theorem phaseW_ended (R : Nat) : phaseW R .ended = 1 := rfl
theorem phaseW_gone (R : Nat) : phaseW R .gone = 0 := rfl

def tasksW (R : Nat) (ts : List Task) : Nat := (ts.map fun x => phaseW R x.phase).sum

def reqW (R : Nat) (req : List (Nat × Nat)) : Nat :=
  (req.map fun p => phaseW R (startPhase R p.2)).sum

def aW (R : Nat) : APos → Nat
  | .idle => 0
  | .sendEvents evs _ => 4 * evs.length + 4
  | .sendConfig => 3
  | .sendTrigger req => reqW R req + 2

def rxW : Rx → Nat
  | .none => 0
  | .waiting => 2
  | .done _ => 1

/-- The bound. -/
def weight (R : Nat) (s : St) : Nat :=
  tasksW R s.tasks + aW R s.a + s.sent.length + (if s.dataQ = none then 0 else 2)
  + (if s.evQ = none then 0 else 3)
  + (match s.trigQ with | none => 0 | some req => reqW R req + 1)
  + (if s.cfgQ then 2 else 0) + (if s.u = .idle then 0 else 1) + (if s.l = .idle then 0 else 1)
  + (if s.f = .idle then 0 else 5) + rxW s.rx + 6 * s.files + (if s.up then 0 else 1)

theorem tasksW_set (R : Nat) : ∀ (ts : List Task) (t : Nat) (x y : Task), ts[t]? = some x →
    tasksW R (ts.set t y) + phaseW R x.phase = tasksW R ts + phaseW R y.phase := by
  intro ts
  induction ts with
  | nil => intro t x y h; simp at h
  | cons z ts ih =>
    intro t x y h
    cases t with
    | zero =>
      simp only [List.getElem?_cons_zero, Option.some.injEq] at h
      subst h
      simp only [List.set_cons_zero, tasksW, List.map_cons, List.sum_cons]
      omega
    | succ t =>
      simp only [List.getElem?_cons_succ] at h
      have := ih t x y h
      simp only [tasksW, List.set_cons_succ, List.map_cons, List.sum_cons] at this ⊢
      omega

/-- A task goes on, everything else stays. -/
theorem weight_setTask (R : Nat) (s : St) (t : Nat) (x y : Task) (hx : s.tasks[t]? = some x) :
    weight R (setTask s t y) + phaseW R x.phase = weight R s + phaseW R y.phase := by
  have h := tasksW_set R s.tasks t x y hx
  have e : ∃ rest, weight R s = tasksW R s.tasks + rest ∧
      weight R (setTask s t y) = tasksW R (s.tasks.set t y) + rest := by
    unfold weight
    simp only [Nat.add_assoc]
    exact ⟨_, rfl, rfl⟩
  obtain ⟨rest, e1, e2⟩ := e
  omega

theorem tasksW_append (R : Nat) (ts : List Task) (x : Task) :
    tasksW R (ts ++ [x]) = tasksW R ts + phaseW R x.phase := by
  simp [tasksW]

theorem shutTask_W (R : Nat) (s : St) (t : Nat) :
    tasksW R (shutTask s t).tasks = tasksW R s.tasks := by
  unfold shutTask
  split
  · rfl
  · rename_i x hx
    have := tasksW_set R s.tasks t x { x with shut := true } hx
    simp only [setTask]
    simp only at this
    omega

theorem answered_le (R : Nat) (x : Task) (ok : Bool) :
    phaseW R (answered R x ok) ≤ phaseW R x.phase := by
  unfold answered
  cases x.phase with
  | waiting m n =>
    have key : phaseW R (nextPhase R x.kind m) ≤ m * (5 * R + 5) + 2 := by
      cases x.kind with
      | continuous => simp [nextPhase, phaseW]
      | stream => simp [nextPhase, phaseW]
      | other => simp [nextPhase, phaseW]
      | trigger =>
        cases m with
        | zero => simp [nextPhase, phaseW]
        | succ m => simp only [nextPhase, phaseW, Nat.succ_mul]; omega
    cases ok with
    | true => simp only [if_true, phaseW_waiting]; omega
    | false =>
      cases n with
      | zero => simp only [phaseW_waiting, Bool.false_eq_true, if_false]; omega
      | succ n => simp only [phaseW_waiting, phaseW_backoff, Bool.false_eq_true, if_false]; omega
  | _ => simp

/-- What an answer costs. -/
theorem resolve_W (R : Nat) (s : St) (m : Msg) (ok : Bool) :
    ∃ ts rx, resolve R s m ok = { s with tasks := ts, rx := rx } ∧
      tasksW R ts + rxW rx ≤ tasksW R s.tasks + rxW s.rx := by
  unfold resolve
  cases m with
  | stats =>
    simp only
    split
    · rename_i h
      refine ⟨s.tasks, _, rfl, ?_⟩
      simp [h, rxW]
    · exact ⟨s.tasks, s.rx, rfl, Nat.le_refl _⟩
  | logs t =>
    simp only
    split
    · exact ⟨s.tasks, s.rx, rfl, Nat.le_refl _⟩
    · rename_i x hx
      refine ⟨_, s.rx, rfl, ?_⟩
      have := tasksW_set R s.tasks t x { x with phase := answered R x ok } hx
      have h2 := answered_le R x ok
      simp only at this
      omega

theorem spawn_W (R : Nat) (s : St) (x : Task) :
    ∃ ts, spawn s x = { s with tasks := ts, shutdowns := (x.buf, s.tasks.length) :: erase s.shutdowns x.buf } ∧
      tasksW R ts = tasksW R s.tasks + phaseW R x.phase := by
  unfold spawn
  simp only
  split
  · rename_i old _
    obtain ⟨ts, h⟩ := shutTask_eq s old
    have hW := shutTask_W R s old
    rw [h] at hW
    refine ⟨ts ++ [x], by rw [h], ?_⟩
    rw [tasksW_append, hW]
  · exact ⟨_, rfl, tasksW_append _ _ _⟩

theorem trigAll_W (R : Nat) : ∀ (req : List (Nat × Nat)) (s : St),
    ∃ ts shs act, req.foldl (trigOne R) s = { s with tasks := ts, shutdowns := shs, active := act } ∧
      tasksW R ts ≤ tasksW R s.tasks + reqW R req := by
  intro req
  induction req with
  | nil => intro s; exact ⟨_, _, _, rfl, by simp [reqW]⟩
  | cons p req ih =>
    intro s
    have one : ∃ ts shs act, trigOne R s p = { s with tasks := ts, shutdowns := shs, active := act } ∧
        tasksW R ts ≤ tasksW R s.tasks + phaseW R (startPhase R p.2) := by
      unfold trigOne
      split
      · exact ⟨_, _, _, rfl, by omega⟩
      · split
        · obtain ⟨ts, h, hW⟩ := spawn_W R s ⟨.trigger, p.1, startPhase R p.2, false⟩
          exact ⟨ts, _, _, by rw [h], by rw [hW]; exact Nat.le_refl _⟩
        · exact ⟨_, _, _, rfl, by omega⟩
    obtain ⟨ts1, shs1, act1, e1, w1⟩ := one
    obtain ⟨ts2, shs2, act2, e2, w2⟩ := ih (trigOne R s p)
    refine ⟨ts2, shs2, act2, by rw [List.foldl_cons, e2, e1], ?_⟩
    rw [e1] at w2
    simp only [reqW, List.map_cons, List.sum_cons] at w2 ⊢
    omega

theorem handleEvent_W (R : Nat) (s : St) (e : Event) (hu : s.u = .idle) :
    ∃ ts shs tb st u, handleEvent s e =
      { s with tasks := ts, shutdowns := shs, trigBufs := tb, streamTask := st, u := u } ∧
      tasksW R ts + (if u = .idle then 0 else 1) ≤ tasksW R s.tasks + 2 := by
  cases e with
  | contCreated id =>
    obtain ⟨ts, h, hW⟩ := spawn_W R s ⟨.continuous, id, .reading, false⟩
    refine ⟨ts, _, s.trigBufs, s.streamTask, s.u, h, ?_⟩
    simp only [hu, if_true, hW, phaseW]; omega
  | trigCreated id =>
    refine ⟨s.tasks, s.shutdowns, _, s.streamTask, s.u, rfl, ?_⟩
    simp [hu]
  | removed id =>
    simp only [handleEvent]
    split
    · rename_i t hl
      obtain ⟨ts, h⟩ := shutTask_eq { s with trigBufs := s.trigBufs.filter (· ≠ id) } t
      have hW := shutTask_W R { s with trigBufs := s.trigBufs.filter (· ≠ id) } t
      rw [h] at hW
      refine ⟨ts, _, _, s.streamTask, _, by rw [h], ?_⟩
      simp only at hW
      simp [hW]
    · refine ⟨s.tasks, s.shutdowns, _, s.streamTask, s.u, rfl, ?_⟩
      simp [hu]
  | streamAdded =>
    simp only [handleEvent]
    split
    · rename_i old hl
      obtain ⟨ts, h⟩ := shutTask_eq s old
      have hW := shutTask_W R s old
      rw [h] at hW
      refine ⟨_, s.shutdowns, s.trigBufs, _, s.u, by rw [h], ?_⟩
      simp only at hW
      simp only [tasksW_append, hu, if_true, phaseW]; omega
    · refine ⟨_, s.shutdowns, s.trigBufs, _, s.u, rfl, ?_⟩
      simp only [tasksW_append, hu, if_true, phaseW]; omega
  | streamRemoved =>
    simp only [handleEvent]
    split
    · rename_i t hl
      obtain ⟨ts, h⟩ := shutTask_eq s t
      have hW := shutTask_W R s t
      rw [h] at hW
      refine ⟨ts, s.shutdowns, s.trigBufs, _, _, by rw [h], ?_⟩
      simp only at hW
      simp [hW]
    · refine ⟨s.tasks, s.shutdowns, s.trigBufs, s.streamTask, s.u, rfl, ?_⟩
      simp [hu]

theorem weight_step (R : Nat) (s s' : St) (l : Label) (hi : l.inside = true)
    (hl : step R s l = some s') : weight R s' < weight R s := by
  cases l with
  | down => simp [Label.inside] at hi
  | kill => simp [Label.inside] at hi
  | config evs ok => simp [Label.inside] at hi
  | serverFlush req => simp [Label.inside] at hi
  | blockingCall => simp [Label.inside] at hi
  | matched req => simp [Label.inside] at hi
  | intent => simp [Label.inside] at hi
  | record t => simp [Label.inside] at hi
  | tick => simp [Label.inside] at hi
  | rotate => simp [Label.inside] at hi
  | connect =>
    simp only [step] at hl
    split at hl
    · rename_i hc
      obtain rfl := Option.some.inj hl
      simp [weight, hc.2.1]
    · simp at hl
  | drain =>
    simp only [step] at hl
    split at hl
    · rename_i m hm
      split at hl
      · obtain rfl := Option.some.inj hl
        simp [weight, hm]; omega
      · simp at hl
    · simp at hl
  | answer m ok =>
    simp only [step] at hl
    split at hl
    · rename_i hc
      obtain ⟨ts, rx, e, hW⟩ := resolve_W R { s with sent := s.sent.erase m } m ok
      obtain rfl := Option.some.inj hl
      have := List.length_erase_of_mem hc.2.2
      have h0 := List.length_pos_of_mem hc.2.2
      rw [e]
      simp only [weight] at hW ⊢
      omega
    · simp at hl
  | putEvent =>
    simp only [step] at hl
    split at hl
    · rename_i e es ok ha
      split at hl
      · rename_i he
        obtain rfl := Option.some.inj hl
        simp [weight, ha, he, aW]; omega
      · simp at hl
    · simp at hl
  | acked =>
    simp only [step] at hl
    split at hl
    · rename_i ok ha
      split at hl
      · obtain rfl := Option.some.inj hl
        cases ok <;> simp [weight, ha, aW] <;> omega
      · simp at hl
    · simp at hl
  | putConfig =>
    simp only [step] at hl
    split at hl
    · rename_i hc
      obtain rfl := Option.some.inj hl
      simp [weight, hc.1, hc.2, aW]; omega
    · simp at hl
  | putTrigger =>
    simp only [step] at hl
    split at hl
    · rename_i req ha
      split at hl
      · rename_i he
        obtain rfl := Option.some.inj hl
        simp [weight, ha, he, aW]; omega
      · simp at hl
    · simp at hl
  | uEvent =>
    simp only [step] at hl
    split at hl
    · rename_i e he
      split at hl
      · rename_i hu
        obtain ⟨ts, shs, tb, st, u, eq, hW⟩ := handleEvent_W R { s with evQ := none } e hu
        obtain rfl := Option.some.inj hl
        rw [eq]
        simp only [weight, he, hu] at hW ⊢
        simp only [reduceCtorEq, if_false, if_true]
        omega
      · simp at hl
    · simp at hl
  | uTrigger =>
    simp only [step] at hl
    split at hl
    · rename_i req he
      split at hl
      · rename_i hu
        obtain ⟨ts, shs, act, eq, hW⟩ := trigAll_W R req { s with trigQ := none }
        obtain rfl := Option.some.inj hl
        rw [eq]
        simp only [weight, he] at hW ⊢
        omega
      · simp at hl
    · simp at hl
  | uDone t =>
    simp only [step] at hl
    split at hl
    · rename_i x hx
      split at hl
      · rename_i hc
        obtain rfl := Option.some.inj hl
        have := weight_setTask R s t x { x with phase := .gone } hx
        rw [hc.2, phaseW_ended, phaseW_gone] at this
        show weight R (setTask s t { x with phase := .gone }) < weight R s
        omega
      · simp at hl
    · simp at hl
  | uClosed =>
    simp only [step] at hl
    split at hl
    · rename_i t hu
      have fin : weight R { s with u := .idle } < weight R s := by
        simp [weight, hu]
      split at hl
      · split at hl
        · obtain rfl := Option.some.inj hl; exact fin
        · simp at hl
      · obtain rfl := Option.some.inj hl; exact fin
    · simp at hl
  | takeConfig =>
    simp only [step] at hl
    split at hl
    · rename_i hc
      obtain rfl := Option.some.inj hl
      simp [weight, hc.2]
    · simp at hl
  | takeFlush =>
    simp only [step] at hl
    split at hl
    · rename_i hc
      obtain rfl := Option.some.inj hl
      simp [weight, hc.1]
    · simp at hl
  | fPut =>
    simp only [step] at hl
    split at hl
    · rename_i hc
      obtain rfl := Option.some.inj hl
      simp [weight, hc.1, hc.2, rxW]; omega
    · simp at hl
  | fResponse =>
    simp only [step] at hl
    split at hl
    · rename_i ok hx
      split at hl
      · rename_i hf
        obtain rfl := Option.some.inj hl
        split
        · rename_i n hn
          simp [weight, hx, hf, hn, rxW]; omega
        · simp [weight, hx, rxW]
      · simp at hl
    · simp at hl
  | tPut t =>
    simp only [step] at hl
    split at hl
    · rename_i x hx
      split at hl
      · rename_i more tries hp
        split at hl
        · rename_i hd
          obtain rfl := Option.some.inj hl
          have := tasksW_set R s.tasks t x { x with phase := .waiting more tries } hx
          simp only [hp, phaseW_sending, phaseW_waiting] at this
          simp only [weight, setTask, hd]
          simp
          omega
        · simp at hl
      · simp at hl
    · simp at hl
  | tWake t =>
    simp only [step] at hl
    split at hl
    · rename_i x hx
      split at hl
      · rename_i more tries hp
        obtain rfl := Option.some.inj hl
        have := weight_setTask R s t x { x with phase := .sending more tries } hx
        rw [hp, phaseW_backoff, phaseW_sending] at this
        omega
      · simp at hl
    · simp at hl
  | tCancel t =>
    simp only [step] at hl
    split at hl
    · rename_i x hx
      split at hl
      · rename_i hc
        obtain rfl := Option.some.inj hl
        have := weight_setTask R s t x { x with phase := .gone } hx
        have hpos : 0 < phaseW R x.phase := by
          simp only [cancellable, Bool.and_eq_true, bne_iff_ne] at hc
          cases hp : x.phase <;> simp_all [phaseW]
        rw [phaseW_gone] at this
        omega
      · simp at hl
    · simp at hl

/-- **C71 (steps).** Without input from outside the tasks make only so many steps. -/
theorem C71_steps_bounded (R : Nat) : ∀ (ls : List Label) (s s' : St),
    (∀ l ∈ ls, l.inside = true) → run R s ls = some s' → ls.length + weight R s' ≤ weight R s := by
  intro ls
  induction ls with
  | nil => intro s s' _ h; simp only [run, Option.some.injEq] at h; subst h; simp
  | cons l ls ih =>
    intro s s' hi h
    simp only [run] at h
    split at h
    · rename_i s1 h1
      have w := weight_step R s s1 l (hi l (by simp)) h1
      have := ih s1 s' (fun l hl => hi l (by simp [hl])) h
      simp only [List.length_cons]; omega
    · simp at h

theorem stuck_or_step (R : Nat) (s : St) :
    Stuck R s ∨ ∃ l s', l.inside = true ∧ step R s l = some s' := by
  by_cases h : ∃ l s', l.inside = true ∧ step R s l = some s'
  · exact .inr h
  · left
    intro l hl
    cases hs : step R s l with
    | none => rfl
    | some s' => exact absurd ⟨l, s', hl, hs⟩ h

/-- **C71 (partial, the outcome).** From every state the logger can be in, when no more input
arrives, the tasks come to rest; and then nobody waits for anybody unless the client was killed or
one of the two circular waits was run into. -/
theorem C71_comes_to_rest_partial (R : Nat) (s : St) (hr : Reach R s) :
    ∃ ls s', (∀ l ∈ ls, l.inside = true) ∧ run R s ls = some s' ∧ Stuck R s' ∧
      (Quiet s' ∨ s'.killed = true ∨ UploadCycle s' ∨ FlushCycle s') := by
  generalize hn : weight R s = n
  induction n using Nat.strongRecOn generalizing s with
  | ind n ih =>
    rcases stuck_or_step R s with hst | ⟨l, s1, hl, h1⟩
    · exact ⟨[], s, by simp, rfl, hst, C71_stuck_partial R s hr hst⟩
    · have hw := weight_step R s s1 l hl h1
      have hr1 : Reach R s1 := by
        obtain ⟨ls, h⟩ := hr
        exact ⟨ls ++ [l], by rw [run_append, h]; simp [run, h1]⟩
      obtain ⟨ls, s2, hi, h2, h3, h4⟩ := ih (weight R s1) (by omega) s1 hr1 rfl
      refine ⟨l :: ls, s2, ?_, by simp only [run, h1]; exact h2, h3, h4⟩
      intro l' hl'
      rcases List.mem_cons.mp hl' with rfl | h
      · exact hl
      · exact hi l' h

end Verif.Tasks
