import Verif.Tasks.Model

/-!
# C71: the tasks of the logger do not wait for each other for ever

What can be said for the code as it is: if no step of any task is possible then all of them wait
for something from outside, or the client was killed, or one of two circular waits was reached
(`C71_stuck_partial`); and without input the tasks make only so many steps
(`C71_steps_bounded`), so one of these is reached.  Both circular waits are reached and are for ever
(`C71_trigger_upload_violated`, `C71_blocking_call_violated`), and after the client was killed
a blocking call may never return (`C71_killed_violated`).
-/

namespace Verif.Tasks

/-- Reached from the start by some inputs and steps. -/
def Reach (R : Nat) (s : St) : Prop := ∃ ls, run R {} ls = some s

/-- No task can make a step. -/
def Stuck (R : Nat) (s : St) : Prop := ∀ l, l.inside = true → step R s l = none

/-- Nobody waits for a task: everything waits for input. -/
structure Quiet (s : St) : Prop where
  a : s.a = .idle
  up : s.up = true
  sent : s.sent = []
  dataQ : s.dataQ = none
  evQ : s.evQ = none
  trigQ : s.trigQ = none
  cfgQ : s.cfgQ = false
  u : s.u = .idle
  l : s.l = .idle
  f : s.f = .idle
  rx : s.rx = .none
  tasks : ∀ x ∈ s.tasks, x.phase = .reading ∨ x.phase = .gone

/-- The API task waits for the upload manager to acknowledge a buffer change, the upload manager
for a triggered upload to end, the triggered upload for the API task to send its data or to pass
on the answer. -/
def UploadCycle (s : St) : Prop :=
  (∃ evs ok, s.a = .sendEvents evs ok) ∧
  ∃ t x, s.u = .closing t ∧ s.tasks[t]? = some x ∧ x.kind = .trigger ∧
    ((∃ m n, x.phase = .waiting m n) ∨ ((∃ m n, x.phase = .sending m n) ∧ s.dataQ ≠ none))

/-- The API task waits for the log buffer to take a configuration, the log buffer for the stats
flusher, the stats flusher for the API task to send its data. -/
def FlushCycle (s : St) : Prop :=
  s.a = .sendConfig ∧ s.cfgQ = true ∧ s.l = .flushing ∧ s.f = .sending ∧ s.dataQ ≠ none

/-! ## Invariant -/

structure Inv (s : St) : Prop where
  wait : ∀ (t : Nat) (x : Task) (m n : Nat), s.tasks[t]? = some x → x.phase = .waiting m n →
    Msg.logs t ∈ s.sent ∨ s.dataQ = some (.logs t)
  rx : s.rx = .waiting → Msg.stats ∈ s.sent ∨ s.dataQ = some .stats
  cls : ∀ t, s.u = .closing t → (∃ evs ok, s.a = .sendEvents evs ok) ∧
    ∃ x : Task, s.tasks[t]? = some x ∧ x.shut = true
  trig : ∀ (t : Nat) (x : Task), s.tasks[t]? = some x → x.kind = .trigger → x.phase ≠ .reading
  sh : ∀ p ∈ s.shutdowns, p.2 < s.tasks.length
  str : ∀ t, s.streamTask = some t → t < s.tasks.length
  ev : s.evQ ≠ none → ∃ evs ok, s.a = .sendEvents evs ok

theorem inv_init : Inv {} := by
  constructor <;> simp

/-- The task list `b` comes from `a` by a change of no task that waits. -/
structure Keeps (a b : St) : Prop where
  len : a.tasks.length ≤ b.tasks.length
  wait : ∀ (t : Nat) (x : Task) (m n : Nat), b.tasks[t]? = some x → x.phase = .waiting m n →
    ∃ y : Task, a.tasks[t]? = some y ∧ y.phase = .waiting m n
  shut : ∀ (t : Nat) (y : Task), a.tasks[t]? = some y → y.shut = true →
    ∃ x : Task, b.tasks[t]? = some x ∧ x.shut = true
  trig : (∀ (t : Nat) (y : Task), a.tasks[t]? = some y → y.kind = .trigger → y.phase ≠ .reading) →
    ∀ (t : Nat) (x : Task), b.tasks[t]? = some x → x.kind = .trigger → x.phase ≠ .reading

theorem Keeps.refl (s : St) : Keeps s s :=
  ⟨Nat.le_refl _, fun _ x _ _ h1 h2 => ⟨x, h1, h2⟩, fun _ y h1 h2 => ⟨y, h1, h2⟩, fun h => h⟩

theorem Keeps.of_tasks {a b : St} (h : b.tasks = a.tasks) : Keeps a b := by
  constructor
  · simp [h]
  · intro t x m n h1 h2; exact ⟨x, by simpa [h] using h1, h2⟩
  · intro t y h1 h2; exact ⟨y, by simpa [h] using h1, h2⟩
  · intro h1 t x h2; rw [h] at h2; exact h1 t x h2

theorem Keeps.trans {a b c : St} (h1 : Keeps a b) (h2 : Keeps b c) : Keeps a c := by
  constructor
  · exact Nat.le_trans h1.len h2.len
  · intro t x m n hx hp
    obtain ⟨y, hy, hyp⟩ := h2.wait t x m n hx hp
    exact h1.wait t y m n hy hyp
  · intro t y hy hs
    obtain ⟨x, hx, hxs⟩ := h1.shut t y hy hs
    exact h2.shut t x hx hxs
  · intro h; exact h2.trig (h1.trig h)

theorem keeps_setTask (s : St) (t : Nat) (x y : Task) (hx : s.tasks[t]? = some x)
    (hw : ∀ m n, y.phase = .waiting m n → x.phase = .waiting m n)
    (hs : x.shut = true → y.shut = true)
    (ht : (x.kind = .trigger → x.phase ≠ .reading) → y.kind = .trigger → y.phase ≠ .reading) :
    Keeps s (setTask s t y) := by
  obtain ⟨hlt, hxe⟩ := List.getElem?_eq_some_iff.mp hx
  constructor
  · simp [setTask]
  · intro t' z m n hz hp
    simp only [setTask, List.getElem?_set] at hz
    split at hz
    · rename_i he; subst he
      obtain rfl := Option.some.inj hz
      exact ⟨x, hx, hw m n hp⟩
    · exact ⟨z, hz, hp⟩
  · intro t' z hz hsh
    simp only [setTask, List.getElem?_set]
    split
    · rename_i he; subst he
      rw [hx] at hz
      obtain rfl := Option.some.inj hz
      exact ⟨y, rfl, hs hsh⟩
    · exact ⟨z, hz, hsh⟩
  · intro h t' z hz
    simp only [setTask, List.getElem?_set] at hz
    split at hz
    · rename_i he; subst he
      obtain rfl := Option.some.inj hz
      exact ht (h _ x hx)
    · exact h t' z hz

theorem keeps_shutTask (s : St) (t : Nat) : Keeps s (shutTask s t) := by
  unfold shutTask
  split
  · exact Keeps.refl s
  · rename_i x hx
    exact keeps_setTask s t x _ hx (fun _ _ h => h) (fun _ => rfl) (fun h => h)

theorem keeps_append (s : St) (x : Task) (hw : ∀ m n, x.phase ≠ .waiting m n)
    (ht : x.kind = .trigger → x.phase ≠ .reading) (s' : St) (h : s'.tasks = s.tasks ++ [x]) :
    Keeps s s' := by
  constructor
  · simp [h]
  · intro t y m n hy hp
    rw [h, List.getElem?_append] at hy
    split at hy
    · exact ⟨y, hy, hp⟩
    · rw [List.getElem?_singleton] at hy
      split at hy
      · obtain rfl := Option.some.inj hy; exact absurd hp (hw m n)
      · simp at hy
  · intro t y hy hs
    refine ⟨y, ?_, hs⟩
    rw [h, List.getElem?_append_left (List.getElem?_eq_some_iff.mp hy).1]
    exact hy
  · intro h0 t y hy
    rw [h, List.getElem?_append] at hy
    split at hy
    · exact h0 t y hy
    · rw [List.getElem?_singleton] at hy
      split at hy
      · obtain rfl := Option.some.inj hy; exact ht
      · simp at hy

@[simp] theorem shutTask_len (s : St) (t : Nat) : (shutTask s t).tasks.length = s.tasks.length := by
  unfold shutTask; split <;> simp [setTask]

theorem shutTask_eq (s : St) (t : Nat) : ∃ ts, shutTask s t = { s with tasks := ts } := by
  unfold shutTask; split
  · exact ⟨s.tasks, rfl⟩
  · exact ⟨_, rfl⟩

theorem shutTask_shut (s : St) (t : Nat) (h : t < s.tasks.length) :
    ∃ x, (shutTask s t).tasks[t]? = some x ∧ x.shut = true := by
  unfold shutTask
  rw [List.getElem?_eq_getElem h]
  refine ⟨{ s.tasks[t] with shut := true }, ?_, rfl⟩
  simp only [setTask, List.getElem?_set, if_true, if_pos h]

theorem answered_not_waiting (R : Nat) (x : Task) (ok : Bool) (m n : Nat) :
    answered R x ok ≠ .waiting m n := by
  unfold answered nextPhase
  cases x.phase <;> cases ok <;> simp <;> (repeat' split) <;> simp

theorem answered_trigger (R : Nat) (x : Task) (ok : Bool) (hk : x.kind = .trigger)
    (h : x.phase ≠ .reading) : answered R x ok ≠ .reading := by
  unfold answered nextPhase
  cases hp : x.phase <;> cases ok <;> simp_all <;> (repeat' split) <;> simp

/-- What `resolve` changes. -/
theorem resolve_eq (R : Nat) (s : St) (m : Msg) (ok : Bool) :
    ∃ ts rx, resolve R s m ok = { s with tasks := ts, rx := rx } := by
  unfold resolve
  split
  · split
    · exact ⟨s.tasks, _, rfl⟩
    · exact ⟨s.tasks, s.rx, rfl⟩
  · split
    · exact ⟨s.tasks, s.rx, rfl⟩
    · exact ⟨_, s.rx, rfl⟩

theorem keeps_resolve (R : Nat) (s : St) (m : Msg) (ok : Bool) : Keeps s (resolve R s m ok) := by
  unfold resolve
  split
  · split
    · exact Keeps.of_tasks rfl
    · exact Keeps.refl s
  · split
    · exact Keeps.refl s
    · rename_i x hx
      refine keeps_setTask s _ x _ hx ?_ (fun h => h) ?_
      · intro a b h; exact absurd h (answered_not_waiting R x ok a b)
      · intro h hk; exact answered_trigger R x ok hk (h hk)

theorem resolve_wait (R : Nat) (s : St) (t : Nat) (ok : Bool) (x : Task) (a b : Nat)
    (h : (resolve R s (.logs t) ok).tasks[t]? = some x) : x.phase ≠ .waiting a b := by
  unfold resolve at h
  simp only at h
  cases hx : s.tasks[t]? with
  | none => simp [hx] at h
  | some y =>
    simp only [hx, setTask, List.getElem?_set, if_true] at h
    rw [if_pos (List.getElem?_eq_some_iff.mp hx).1] at h
    obtain rfl := Option.some.inj h
    exact answered_not_waiting R y ok a b

theorem resolve_rx (R : Nat) (s : St) (ok : Bool) : (resolve R s .stats ok).rx ≠ .waiting := by
  unfold resolve
  cases h : s.rx <;> simp [h]

theorem resolve_rx_of (R : Nat) (s : St) (m : Msg) (ok : Bool)
    (h : (resolve R s m ok).rx = .waiting) : s.rx = .waiting := by
  cases m with
  | stats => exact absurd h (resolve_rx R s ok)
  | logs t =>
    unfold resolve at h
    simp only at h
    split at h <;> exact h

/-- After every outstanding upload has failed. -/
theorem fails_spec (R : Nat) : ∀ (ms : List Msg) (s : St),
    (∃ ts rx, ms.foldl (fun s m => resolve R s m false) s = { s with tasks := ts, rx := rx }) ∧
    Keeps s (ms.foldl (fun s m => resolve R s m false) s) ∧
    (∀ (t : Nat) (x : Task) (a b : Nat), (ms.foldl (fun s m => resolve R s m false) s).tasks[t]? = some x →
      x.phase = .waiting a b → Msg.logs t ∉ ms) ∧
    ((ms.foldl (fun s m => resolve R s m false) s).rx = .waiting →
      s.rx = .waiting ∧ Msg.stats ∉ ms) := by
  intro ms
  induction ms with
  | nil => intro s; exact ⟨⟨s.tasks, s.rx, rfl⟩, Keeps.refl s, by simp, by simp⟩
  | cons m ms ih =>
    intro s
    simp only [List.foldl_cons]
    obtain ⟨⟨ts, rx, e⟩, k, w, r⟩ := ih (resolve R s m false)
    obtain ⟨ts', rx', e'⟩ := resolve_eq R s m false
    refine ⟨⟨ts, rx, by rw [e, e']⟩, (keeps_resolve R s m false).trans k, ?_, ?_⟩
    · intro t x a b hx hp
      have := w t x a b hx hp
      rw [List.mem_cons, not_or]
      refine ⟨?_, this⟩
      intro he
      subst he
      obtain ⟨y, hy, hyp⟩ := k.wait t x a b hx hp
      exact resolve_wait R s t false y a b hy hyp
    · intro hr
      obtain ⟨h1, h2⟩ := r hr
      refine ⟨resolve_rx_of R s m false h1, ?_⟩
      rw [List.mem_cons, not_or]
      refine ⟨?_, h2⟩
      intro he; subst he
      exact resolve_rx R s false h1

theorem keeps_spawn (s : St) (x : Task) (hw : ∀ m n, x.phase ≠ .waiting m n)
    (ht : x.kind = .trigger → x.phase ≠ .reading) : Keeps s (spawn s x) := by
  unfold spawn
  simp only
  split
  · rename_i old _
    refine (keeps_shutTask s old).trans ?_
    exact keeps_append _ x hw ht _ rfl
  · exact keeps_append _ x hw ht _ rfl

/-- What `spawn` leaves as it was. -/
theorem spawn_eq (s : St) (x : Task) :
    ∃ ts, spawn s x = { s with tasks := ts, shutdowns := (x.buf, s.tasks.length) :: erase s.shutdowns x.buf } ∧
      ts.length = s.tasks.length + 1 := by
  unfold spawn
  simp only
  split
  · rename_i old _
    obtain ⟨ts, h⟩ := shutTask_eq s old
    have hl := shutTask_len s old
    rw [h] at hl
    refine ⟨ts ++ [x], by rw [h], ?_⟩
    simp only [List.length_append, List.length_singleton, hl]
  · exact ⟨_, rfl, by simp⟩

theorem erase_sub (m : List (Nat × Nat)) (id : Nat) : ∀ p ∈ erase m id, p ∈ m := by
  intro p hp
  exact (List.mem_filter.mp hp).1

theorem trigOne_spec (R : Nat) (s : St) (p : Nat × Nat) :
    Keeps s (trigOne R s p) ∧
    (∃ ts shs act, trigOne R s p = { s with tasks := ts, shutdowns := shs, active := act }) ∧
    ((∀ q ∈ s.shutdowns, q.2 < s.tasks.length) →
      ∀ q ∈ (trigOne R s p).shutdowns, q.2 < (trigOne R s p).tasks.length) := by
  unfold trigOne
  split
  · exact ⟨Keeps.refl s, ⟨_, _, _, rfl⟩, fun h => h⟩
  · split
    · obtain ⟨ts, h, hl⟩ := spawn_eq s ⟨.trigger, p.1, startPhase R p.2, false⟩
      refine ⟨?_, ?_, ?_⟩
      · refine (keeps_spawn s ⟨.trigger, p.1, startPhase R p.2, false⟩ ?_ ?_).trans (Keeps.of_tasks rfl)
        · intro m n; cases p.2 <;> simp [startPhase]
        · intro _; cases p.2 <;> simp [startPhase]
      · exact ⟨ts, _, _, by rw [h]⟩
      · intro h0
        rw [h]
        simp only [List.mem_cons]
        rintro q (rfl | hq)
        · simp [hl]
        · have := h0 q (erase_sub _ _ _ hq)
          omega
    · exact ⟨Keeps.refl s, ⟨_, _, _, rfl⟩, fun h => h⟩

theorem trigAll_spec (R : Nat) : ∀ (req : List (Nat × Nat)) (s : St),
    Keeps s (req.foldl (trigOne R) s) ∧
    (∃ ts shs act, req.foldl (trigOne R) s = { s with tasks := ts, shutdowns := shs, active := act }) ∧
    ((∀ q ∈ s.shutdowns, q.2 < s.tasks.length) →
      ∀ q ∈ (req.foldl (trigOne R) s).shutdowns, q.2 < (req.foldl (trigOne R) s).tasks.length) := by
  intro req
  induction req with
  | nil => intro s; exact ⟨Keeps.refl s, ⟨_, _, _, rfl⟩, fun h => h⟩
  | cons p req ih =>
    intro s
    obtain ⟨k1, ⟨ts, shs, act, e1⟩, b1⟩ := trigOne_spec R s p
    obtain ⟨k2, ⟨ts2, shs2, act2, e2⟩, b2⟩ := ih (trigOne R s p)
    exact ⟨k1.trans k2, ⟨ts2, shs2, act2, by rw [List.foldl_cons, e2, e1]⟩, fun h => b2 (b1 h)⟩

theorem lookup_mem (m : List (Nat × Nat)) (id t : Nat) (h : lookup m id = some t) :
    ∃ p ∈ m, p.2 = t := by
  unfold lookup at h
  rw [Option.map_eq_some_iff] at h
  obtain ⟨p, hp, rfl⟩ := h
  exact ⟨p, List.mem_of_find?_eq_some hp, rfl⟩

/-- The invariant from what a step did to the tasks and to the rest. -/
theorem Inv.keep {s s' : St} (h : Inv s) (k : Keeps s s')
    (hw : ∀ t, (∃ (x : Task) (m n : Nat), s'.tasks[t]? = some x ∧ x.phase = .waiting m n) →
      (Msg.logs t ∈ s.sent ∨ s.dataQ = some (.logs t)) →
      (Msg.logs t ∈ s'.sent ∨ s'.dataQ = some (.logs t)))
    (hr : s'.rx = .waiting → Msg.stats ∈ s'.sent ∨ s'.dataQ = some .stats)
    (hc : ∀ t, s'.u = .closing t → (∃ evs ok, s'.a = .sendEvents evs ok) ∧
      (s.u = .closing t ∨ ∃ x : Task, s'.tasks[t]? = some x ∧ x.shut = true))
    (hsh : ∀ p ∈ s'.shutdowns, p.2 < s'.tasks.length)
    (hst : ∀ t, s'.streamTask = some t → t < s'.tasks.length)
    (hev : s'.evQ ≠ none → ∃ evs ok, s'.a = .sendEvents evs ok) : Inv s' := by
  constructor
  · intro t x m n hx hp
    obtain ⟨y, hy, hyp⟩ := k.wait t x m n hx hp
    exact hw t ⟨x, m, n, hx, hp⟩ (h.wait t y m n hy hyp)
  · exact hr
  · intro t ht
    obtain ⟨h1, h2⟩ := hc t ht
    refine ⟨h1, ?_⟩
    rcases h2 with h2 | h2
    · obtain ⟨_, y, hy, hs⟩ := h.cls t h2
      exact k.shut t y hy hs
    · exact h2
  · exact k.trig h.trig
  · exact hsh
  · exact hst
  · exact hev

/-- `handle_buffer_event`: what it changes, and what it waits for. -/
theorem handleEvent_spec (s : St) (e : Event)
    (hs : ∀ p ∈ s.shutdowns, p.2 < s.tasks.length)
    (hst : ∀ t, s.streamTask = some t → t < s.tasks.length) (hu : s.u = .idle) :
    Keeps s (handleEvent s e) ∧
    (∃ ts shs tb st u, handleEvent s e =
      { s with tasks := ts, shutdowns := shs, trigBufs := tb, streamTask := st, u := u }) ∧
    (∀ p ∈ (handleEvent s e).shutdowns, p.2 < (handleEvent s e).tasks.length) ∧
    (∀ t, (handleEvent s e).streamTask = some t → t < (handleEvent s e).tasks.length) ∧
    (∀ t, (handleEvent s e).u = .closing t →
      ∃ x : Task, (handleEvent s e).tasks[t]? = some x ∧ x.shut = true) := by
  cases e with
  | contCreated id =>
    obtain ⟨ts, h, hl⟩ := spawn_eq s ⟨.continuous, id, .reading, false⟩
    refine ⟨keeps_spawn s _ (by simp) (by simp), ?_, ?_, ?_, ?_⟩
    · exact ⟨ts, _, s.trigBufs, s.streamTask, s.u, h⟩
    · simp only [handleEvent, h, List.mem_cons]
      rintro p (rfl | hp)
      · simp [hl]
      · have := hs p (erase_sub _ _ _ hp)
        omega
    · simp only [handleEvent, h]
      intro t ht
      have := hst t ht
      omega
    · simp only [handleEvent, h, hu]
      intro t ht; simp at ht
  | trigCreated id =>
    refine ⟨Keeps.of_tasks rfl, ⟨s.tasks, s.shutdowns, _, s.streamTask, s.u, rfl⟩, hs, hst, ?_⟩
    simp only [handleEvent, hu]
    intro t ht; simp at ht
  | removed id =>
    simp only [handleEvent]
    cases hl : lookup s.shutdowns id with
    | none =>
      simp only
      refine ⟨Keeps.of_tasks rfl, ⟨s.tasks, s.shutdowns, _, s.streamTask, s.u, rfl⟩, hs, hst, ?_⟩
      simp only [hu]
      intro t ht; simp at ht
    | some t =>
      simp only
      obtain ⟨ts, h⟩ := shutTask_eq { s with trigBufs := s.trigBufs.filter (· ≠ id) } t
      have hlen := shutTask_len { s with trigBufs := s.trigBufs.filter (· ≠ id) } t
      obtain ⟨p, hp, rfl⟩ := lookup_mem _ _ _ hl
      have hsh := shutTask_shut { s with trigBufs := s.trigBufs.filter (· ≠ id) } p.2 (hs p hp)
      refine ⟨?_, ?_, ?_, ?_, ?_⟩
      · have k := keeps_shutTask { s with trigBufs := s.trigBufs.filter (· ≠ id) } p.2
        exact ⟨k.len, k.wait, k.shut, k.trig⟩
      · exact ⟨ts, _, _, s.streamTask, _, by rw [h]⟩
      · intro q hq
        have := hs q (erase_sub _ _ _ hq)
        simp only at hlen ⊢
        omega
      · rw [h]
        intro t' ht'
        have := hst t' ht'
        rw [h] at hlen
        simp only at hlen ⊢
        omega
      · intro t' ht'
        simp only [UPos.closing.injEq] at ht'
        subst ht'
        exact hsh
  | streamAdded =>
    simp only [handleEvent]
    cases hl : s.streamTask with
    | none =>
      simp only
      refine ⟨keeps_append s _ (by simp) (by simp) _ rfl, ⟨_, s.shutdowns, s.trigBufs, _, s.u, rfl⟩, ?_, ?_, ?_⟩
      · intro q hq
        have := hs q hq
        simp only [List.length_append, List.length_singleton]
        omega
      · intro t ht
        simp only [Option.some.injEq] at ht
        simp only [List.length_append, List.length_singleton]
        omega
      · simp only [hu]
        intro t ht; simp at ht
    | some old =>
      simp only
      obtain ⟨ts, h⟩ := shutTask_eq s old
      have hlen := shutTask_len s old
      refine ⟨(keeps_shutTask s old).trans (keeps_append _ _ (by simp) (by simp) _ rfl), ?_, ?_, ?_, ?_⟩
      · exact ⟨_, s.shutdowns, s.trigBufs, _, s.u, by rw [h]⟩
      · intro q hq
        rw [h] at hq
        have := hs q hq
        simp only [List.length_append, List.length_singleton]
        omega
      · intro t ht
        simp only [Option.some.injEq] at ht
        simp only [List.length_append, List.length_singleton]
        omega
      · rw [h]
        simp only [hu]
        intro t ht; simp at ht
  | streamRemoved =>
    simp only [handleEvent]
    cases hl : s.streamTask with
    | none =>
      simp only
      refine ⟨Keeps.refl s, ⟨s.tasks, s.shutdowns, s.trigBufs, s.streamTask, s.u, rfl⟩, hs, hst, ?_⟩
      simp only [hu]
      intro t ht; simp at ht
    | some t =>
      simp only
      obtain ⟨ts, h⟩ := shutTask_eq s t
      have hlen := shutTask_len s t
      refine ⟨(keeps_shutTask s t).trans (Keeps.of_tasks rfl), ?_, ?_, ?_, ?_⟩
      · exact ⟨ts, s.shutdowns, s.trigBufs, _, _, by rw [h]⟩
      · intro q hq
        rw [h] at hq
        have := hs q hq
        exact Nat.lt_of_lt_of_le this (Nat.le_of_eq hlen.symm)
      · intro t' ht'; simp at ht'
      · intro t' ht'
        simp only [UPos.closing.injEq] at ht'
        subst ht'
        exact shutTask_shut s t (hst t hl)

theorem mem_erase_ne {α : Type} [DecidableEq α] {a b : α} {l : List α} (h : a ∈ l) (hn : a ≠ b) :
    a ∈ l.erase b := by
  exact (List.mem_erase_of_ne hn).mpr h

theorem inv_step (R : Nat) (s s' : St) (l : Label) (h : Inv s) (hl : step R s l = some s') :
    Inv s' := by
  cases l with
  | down =>
    simp only [step] at hl
    split at hl
    · rename_i hc
      obtain ⟨⟨ts, rx, e⟩, k, w, r⟩ := fails_spec R s.sent s
      obtain rfl := Option.some.inj hl
      have hnu : s.u = .idle := by
        cases hu : s.u with
        | idle => rfl
        | closing t => obtain ⟨⟨_, _, h2⟩, _⟩ := h.cls t hu; simp [hc.1] at h2
      have hne : s.evQ = none := by
        cases he : s.evQ with
        | none => rfl
        | some e => obtain ⟨_, _, h2⟩ := h.ev (by simp [he]); simp [hc.1] at h2
      have hlen := k.len
      refine h.keep (k.trans (Keeps.of_tasks rfl)) ?_ ?_ ?_ ?_ ?_ ?_
      · rintro t ⟨x, m, n, hx, hp⟩ ho
        have := w t x m n hx hp
        rcases ho with ho | ho
        · exact absurd ho this
        · right; rw [e]; exact ho
      · intro hr
        obtain ⟨r1, r2⟩ := r hr
        rcases h.rx r1 with h1 | h1
        · exact absurd h1 r2
        · right; rw [e]; exact h1
      · intro t ht; rw [e] at ht; simp [hnu] at ht
      · intro q hq
        rw [e] at hq
        have := h.sh q hq
        exact Nat.lt_of_lt_of_le this hlen
      · intro t ht
        have h2 : s.streamTask = some t := by rw [e] at ht; exact ht
        have := h.str t h2
        exact Nat.lt_of_lt_of_le this hlen
      · intro hq; rw [e] at hq; exact absurd hne hq
    · simp at hl
  | kill =>
    simp only [step] at hl
    split at hl
    · obtain rfl := Option.some.inj hl
      exact ⟨h.wait, h.rx, h.cls, h.trig, h.sh, h.str, h.ev⟩
    · simp at hl
  | config evs ok =>
    simp only [step] at hl
    split at hl
    · rename_i hc
      obtain rfl := Option.some.inj hl
      refine ⟨h.wait, h.rx, ?_, h.trig, h.sh, h.str, fun _ => ⟨evs, ok, rfl⟩⟩
      intro t ht
      exact ⟨⟨evs, ok, rfl⟩, (h.cls t ht).2⟩
    · simp at hl
  | serverFlush req =>
    simp only [step] at hl
    split at hl
    · rename_i hc
      obtain rfl := Option.some.inj hl
      refine ⟨h.wait, h.rx, ?_, h.trig, h.sh, h.str, ?_⟩
      · intro t ht; obtain ⟨⟨_, _, h2⟩, _⟩ := h.cls t ht; simp [hc.1] at h2
      · intro he; obtain ⟨_, _, h2⟩ := h.ev he; simp [hc.1] at h2
    · simp at hl
  | blockingCall =>
    simp only [step] at hl
    split at hl
    · obtain rfl := Option.some.inj hl
      exact ⟨h.wait, h.rx, h.cls, h.trig, h.sh, h.str, h.ev⟩
    · simp at hl
  | matched req =>
    simp only [step] at hl
    split at hl
    · obtain rfl := Option.some.inj hl
      split
      · exact h
      · exact ⟨h.wait, h.rx, h.cls, h.trig, h.sh, h.str, h.ev⟩
    · simp at hl
  | intent =>
    simp only [step] at hl
    obtain rfl := Option.some.inj hl
    refine h.keep (keeps_append s _ (by simp) (by simp) _ rfl) ?_ h.rx ?_ ?_ ?_ h.ev
    · intro t _ ho; exact ho
    · intro t ht; exact ⟨(h.cls t ht).1, .inl ht⟩
    · intro q hq
      have := h.sh q hq
      simp only [List.length_append, List.length_singleton]; omega
    · intro t ht
      have := h.str t ht
      simp only [List.length_append, List.length_singleton]; omega
  | record t =>
    simp only [step] at hl
    split at hl
    · rename_i x hx
      split at hl
      · rename_i hp
        obtain rfl := Option.some.inj hl
        refine h.keep (keeps_setTask s t x _ hx (by simp) (fun h => h) (by simp)) ?_ h.rx ?_ ?_ ?_ h.ev
        · intro t _ ho; exact ho
        · intro t ht; exact ⟨(h.cls t ht).1, .inl ht⟩
        · intro q hq; simpa [setTask] using h.sh q hq
        · intro t ht; simpa [setTask] using h.str t ht
      · simp at hl
    · simp at hl
  | tick =>
    simp only [step] at hl
    split at hl
    · obtain rfl := Option.some.inj hl
      exact ⟨h.wait, h.rx, h.cls, h.trig, h.sh, h.str, h.ev⟩
    · simp at hl
  | rotate =>
    simp only [step] at hl
    obtain rfl := Option.some.inj hl
    exact ⟨h.wait, h.rx, h.cls, h.trig, h.sh, h.str, h.ev⟩
  | connect =>
    simp only [step] at hl
    split at hl
    · obtain rfl := Option.some.inj hl
      exact ⟨h.wait, h.rx, h.cls, h.trig, h.sh, h.str, h.ev⟩
    · simp at hl
  | drain =>
    simp only [step] at hl
    split at hl
    · rename_i m hm
      split at hl
      · obtain rfl := Option.some.inj hl
        refine ⟨?_, ?_, h.cls, h.trig, h.sh, h.str, h.ev⟩
        · intro t x a b hx hp
          left
          rcases h.wait t x a b hx hp with h1 | h1
          · exact List.mem_append_left _ h1
          · rw [hm] at h1; simp [Option.some.inj h1]
        · intro hr
          left
          rcases h.rx hr with h1 | h1
          · exact List.mem_append_left _ h1
          · rw [hm] at h1; simp [Option.some.inj h1]
      · simp at hl
    · simp at hl
  | answer m ok =>
    simp only [step] at hl
    split at hl
    · rename_i hc
      obtain ⟨ts, rx, e⟩ := resolve_eq R { s with sent := s.sent.erase m } m ok
      have k := keeps_resolve R { s with sent := s.sent.erase m } m ok
      have hlen := k.len
      have hw := resolve_wait R { s with sent := s.sent.erase m }
      have hr1 := resolve_rx R { s with sent := s.sent.erase m } ok
      have hr2 := resolve_rx_of R { s with sent := s.sent.erase m } m ok
      obtain rfl := Option.some.inj hl
      refine h.keep ⟨k.len, k.wait, k.shut, k.trig⟩ ?_ ?_ ?_ ?_ ?_ ?_
      · rintro t ⟨x, a, b, hx, hp⟩ ho
        have hne : Msg.logs t ≠ m := by
          intro he; subst he; exact hw t ok x a b hx hp
        rcases ho with ho | ho
        · left; rw [e]; exact mem_erase_ne ho hne
        · right; rw [e]; exact ho
      · intro hr
        have hne : Msg.stats ≠ m := by
          intro he; subst he; exact hr1 hr
        rcases h.rx (hr2 hr) with h1 | h1
        · left; rw [e]; exact mem_erase_ne h1 hne
        · right; rw [e]; exact h1
      · intro t ht
        rw [e] at ht
        refine ⟨?_, .inl ht⟩
        rw [e]
        exact (h.cls t ht).1
      · intro q hq
        rw [e] at hq
        have := h.sh q hq
        exact Nat.lt_of_lt_of_le this hlen
      · intro t ht
        have h2 : s.streamTask = some t := by rw [e] at ht; exact ht
        have := h.str t h2
        exact Nat.lt_of_lt_of_le this hlen
      · intro hq; rw [e] at hq ⊢; exact h.ev hq
    · simp at hl
  | putEvent =>
    simp only [step] at hl
    split at hl
    · rename_i e es ok ha
      split at hl
      · obtain rfl := Option.some.inj hl
        refine ⟨h.wait, h.rx, ?_, h.trig, h.sh, h.str, fun _ => ⟨es, ok, rfl⟩⟩
        intro t ht
        exact ⟨⟨es, ok, rfl⟩, (h.cls t ht).2⟩
      · simp at hl
    · simp at hl
  | acked =>
    simp only [step] at hl
    split at hl
    · rename_i ok ha
      split at hl
      · rename_i hc
        obtain rfl := Option.some.inj hl
        refine ⟨h.wait, h.rx, ?_, h.trig, h.sh, h.str, fun he => absurd hc.1 he⟩
        intro t ht
        simp [hc.2] at ht
      · simp at hl
    · simp at hl
  | putConfig =>
    simp only [step] at hl
    split at hl
    · rename_i hc
      obtain rfl := Option.some.inj hl
      refine ⟨h.wait, h.rx, ?_, h.trig, h.sh, h.str, ?_⟩
      · intro t ht; obtain ⟨⟨_, _, h2⟩, _⟩ := h.cls t ht; simp [hc.1] at h2
      · intro he; obtain ⟨_, _, h2⟩ := h.ev he; simp [hc.1] at h2
    · simp at hl
  | putTrigger =>
    simp only [step] at hl
    split at hl
    · rename_i req ha
      split at hl
      · obtain rfl := Option.some.inj hl
        refine ⟨h.wait, h.rx, ?_, h.trig, h.sh, h.str, ?_⟩
        · intro t ht; obtain ⟨⟨_, _, h2⟩, _⟩ := h.cls t ht; simp [ha] at h2
        · intro he; obtain ⟨_, _, h2⟩ := h.ev he; simp [ha] at h2
      · simp at hl
    · simp at hl
  | uEvent =>
    simp only [step] at hl
    split at hl
    · rename_i e he
      split at hl
      · rename_i hu
        obtain ⟨k, ⟨ts, shs, tb, st, u, eq⟩, h1, h2, h3⟩ :=
          handleEvent_spec { s with evQ := none } e h.sh h.str hu
        obtain rfl := Option.some.inj hl
        have ha := h.ev (by simp [he])
        refine h.keep ⟨k.len, k.wait, k.shut, k.trig⟩ ?_ ?_ ?_ h1 h2 ?_
        · intro t _ ho; rw [eq]; exact ho
        · rw [eq]; exact h.rx
        · intro t ht
          refine ⟨by rw [eq]; exact ha, .inr (h3 t ht)⟩
        · intro hq; rw [eq] at hq; simp at hq
      · simp at hl
    · simp at hl
  | uTrigger =>
    simp only [step] at hl
    split at hl
    · rename_i req he
      split at hl
      · rename_i hu
        obtain ⟨k, ⟨ts, shs, act, eq⟩, h1⟩ := trigAll_spec R req { s with trigQ := none }
        obtain rfl := Option.some.inj hl
        have hlen := k.len
        refine h.keep ⟨k.len, k.wait, k.shut, k.trig⟩ ?_ ?_ ?_ (h1 h.sh) ?_ ?_
        · intro t _ ho; rw [eq]; exact ho
        · rw [eq]; exact h.rx
        · intro t ht; rw [eq] at ht; simp [hu] at ht
        · intro t ht
          have h2 : s.streamTask = some t := by rw [eq] at ht; exact ht
          have := h.str t h2
          exact Nat.lt_of_lt_of_le this hlen
        · intro hq; rw [eq] at hq ⊢; exact h.ev hq
      · simp at hl
    · simp at hl
  | uDone t =>
    simp only [step] at hl
    split at hl
    · rename_i x hx
      split at hl
      · rename_i hc
        obtain rfl := Option.some.inj hl
        have k := keeps_setTask s t x { x with phase := .gone } hx (by simp) (fun h => h) (by simp)
        refine h.keep (k.trans (Keeps.of_tasks rfl)) ?_ h.rx ?_ ?_ ?_ h.ev
        · intro t _ ho; exact ho
        · intro t ht; exact ⟨(h.cls t ht).1, .inl ht⟩
        · intro q hq; simpa [setTask] using h.sh q hq
        · intro t ht; simpa [setTask] using h.str t ht
      · simp at hl
    · simp at hl
  | uClosed =>
    simp only [step] at hl
    have fin : Inv { s with u := .idle } :=
      ⟨h.wait, h.rx, fun t ht => by simp at ht, h.trig, h.sh, h.str, h.ev⟩
    split at hl
    · split at hl
      · split at hl
        · obtain rfl := Option.some.inj hl; exact fin
        · simp at hl
      · obtain rfl := Option.some.inj hl; exact fin
    · simp at hl
  | takeConfig =>
    simp only [step] at hl
    split at hl
    · obtain rfl := Option.some.inj hl
      exact ⟨h.wait, h.rx, h.cls, h.trig, h.sh, h.str, h.ev⟩
    · simp at hl
  | takeFlush =>
    simp only [step] at hl
    split at hl
    · obtain rfl := Option.some.inj hl
      exact ⟨h.wait, h.rx, h.cls, h.trig, h.sh, h.str, h.ev⟩
    · simp at hl
  | fPut =>
    simp only [step] at hl
    split at hl
    · rename_i hc
      obtain rfl := Option.some.inj hl
      refine ⟨?_, fun _ => .inr rfl, h.cls, h.trig, h.sh, h.str, h.ev⟩
      intro t x a b hx hp
      rcases h.wait t x a b hx hp with h1 | h1
      · exact .inl h1
      · rw [hc.2] at h1; simp at h1
    · simp at hl
  | fResponse =>
    simp only [step] at hl
    split at hl
    · split at hl
      · obtain rfl := Option.some.inj hl
        split
        · exact ⟨h.wait, by simp, h.cls, h.trig, h.sh, h.str, h.ev⟩
        · exact ⟨h.wait, by simp, h.cls, h.trig, h.sh, h.str, h.ev⟩
      · simp at hl
    · simp at hl
  | tPut t =>
    simp only [step] at hl
    split at hl
    · rename_i x hx
      split at hl
      · rename_i more tries hp
        split at hl
        · rename_i hd
          obtain rfl := Option.some.inj hl
          have hlt := (List.getElem?_eq_some_iff.mp hx).1
          constructor
          · intro t' y a b hy hyp
            simp only [setTask, List.getElem?_set] at hy
            split at hy
            · rename_i he; subst he; exact .inr rfl
            · rcases h.wait t' y a b hy hyp with h1 | h1
              · exact .inl h1
              · rw [hd] at h1; simp at h1
          · intro hr
            rcases h.rx hr with h1 | h1
            · exact .inl h1
            · rw [hd] at h1; simp at h1
          · intro t' ht'
            obtain ⟨h1, y, hy, hs⟩ := h.cls t' ht'
            refine ⟨h1, ?_⟩
            simp only [setTask, List.getElem?_set]
            split
            · rename_i he; subst he
              rw [hx] at hy
              obtain rfl := Option.some.inj hy
              exact ⟨_, rfl, hs⟩
            · exact ⟨y, hy, hs⟩
          · intro t' y hy hk
            simp only [setTask, List.getElem?_set] at hy
            split at hy
            · obtain rfl := Option.some.inj hy; simp
            · exact h.trig t' y hy hk
          · intro q hq; simpa [setTask] using h.sh q hq
          · intro t ht; simpa [setTask] using h.str t ht
          · exact h.ev
        · simp at hl
      · simp at hl
    · simp at hl
  | tWake t =>
    simp only [step] at hl
    split at hl
    · rename_i x hx
      split at hl
      · obtain rfl := Option.some.inj hl
        refine h.keep (keeps_setTask s t x _ hx (by simp) (fun h => h) (by simp)) ?_ h.rx ?_ ?_ ?_ h.ev
        · intro t _ ho; exact ho
        · intro t ht; exact ⟨(h.cls t ht).1, .inl ht⟩
        · intro q hq; simpa [setTask] using h.sh q hq
        · intro t ht; simpa [setTask] using h.str t ht
      · simp at hl
    · simp at hl
  | tCancel t =>
    simp only [step] at hl
    split at hl
    · rename_i x hx
      split at hl
      · obtain rfl := Option.some.inj hl
        refine h.keep (keeps_setTask s t x _ hx (by simp) (fun h => h) (by simp)) ?_ h.rx ?_ ?_ ?_ h.ev
        · intro t _ ho; exact ho
        · intro t ht; exact ⟨(h.cls t ht).1, .inl ht⟩
        · intro q hq; simpa [setTask] using h.sh q hq
        · intro t ht; simpa [setTask] using h.str t ht
      · simp at hl
    · simp at hl

theorem run_append (R : Nat) (s : St) (a b : List Label) :
    run R s (a ++ b) = (run R s a).bind fun s' => run R s' b := by
  induction a generalizing s with
  | nil => rfl
  | cons l a ih =>
    simp only [List.cons_append, run]
    split
    · exact ih _
    · rfl

theorem inv_run (R : Nat) (ls : List Label) : ∀ s s', Inv s → run R s ls = some s' → Inv s' := by
  induction ls with
  | nil => intro s s' h hr; simp only [run, Option.some.injEq] at hr; subst hr; exact h
  | cons l ls ih =>
    intro s s' h hr
    simp only [run] at hr
    split at hr
    · rename_i s1 h1
      exact ih s1 s' (inv_step R s s1 l h h1) hr
    · simp at hr

theorem Reach.inv {R : Nat} {s : St} (h : Reach R s) : Inv s := by
  obtain ⟨ls, h⟩ := h
  exact inv_run R ls _ _ inv_init h

end Verif.Tasks
