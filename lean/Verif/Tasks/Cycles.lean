import Verif.Tasks.Progress

/-!
# C71: the circular waits are reached, and are for ever
-/

namespace Verif.Tasks

theorem UploadCycle.setTask_ne {s : St} {t : Nat} {x : Task}
    (ha : ∃ evs ok, s.a = .sendEvents evs ok) (hu : s.u = .closing t)
    (hx : s.tasks[t]? = some x) (hk : x.kind = .trigger)
    (hp : (∃ m n, x.phase = .waiting m n) ∨ ((∃ m n, x.phase = .sending m n) ∧ s.dataQ ≠ none))
    (t' : Nat) (y : Task) (hne : t' ≠ t) : UploadCycle (setTask s t' y) := by
  refine ⟨ha, t, x, hu, ?_, hk, hp⟩
  simp only [setTask]
  rw [List.getElem?_set_ne hne]
  exact hx

/-- Once the API task, the upload manager and a triggered upload wait for each other, no step of
any task and no input changes that. -/
theorem uploadCycle_step (R : Nat) (s s' : St) (l : Label) (h : UploadCycle s)
    (hl : step R s l = some s') : UploadCycle s' := by
  obtain ⟨ha, t, x, hu, hx, hk, hp⟩ := h
  have hal := ha
  obtain ⟨evs, ok, hae⟩ := hal
  have hnr : x.phase ≠ .reading := by
    rcases hp with ⟨m, n, h⟩ | ⟨⟨m, n, h⟩, _⟩ <;> simp [h]
  have hnb : ∀ m n, x.phase ≠ .backoff m n := by
    rcases hp with ⟨m, n, h⟩ | ⟨⟨m, n, h⟩, _⟩ <;> simp [h]
  have hns : ∀ m n, x.phase = .sending m n → s.dataQ ≠ none := by
    intro m n h
    rcases hp with ⟨m', n', h'⟩ | ⟨_, h'⟩
    · simp [h] at h'
    · exact h'
  cases l with
  | down => simp [step, hae] at hl
  | kill => simp [step, hae] at hl
  | config evs' ok' => simp [step, hae] at hl
  | serverFlush req => simp [step, hae] at hl
  | blockingCall =>
    simp only [step] at hl
    split at hl
    · obtain rfl := Option.some.inj hl; exact ⟨ha, t, x, hu, hx, hk, hp⟩
    · simp at hl
  | matched req =>
    simp only [step] at hl
    split at hl
    · obtain rfl := Option.some.inj hl
      split
      · exact ⟨ha, t, x, hu, hx, hk, hp⟩
      · exact ⟨ha, t, x, hu, hx, hk, hp⟩
    · simp at hl
  | intent =>
    simp only [step] at hl
    obtain rfl := Option.some.inj hl
    refine ⟨ha, t, x, hu, ?_, hk, hp⟩
    show (s.tasks ++ _)[t]? = some x
    rw [List.getElem?_append_left (List.getElem?_eq_some_iff.mp hx).1]
    exact hx
  | record t' =>
    simp only [step] at hl
    split at hl
    · rename_i y hy
      split at hl
      · rename_i hr
        obtain rfl := Option.some.inj hl
        refine UploadCycle.setTask_ne ha hu hx hk hp t' _ ?_
        rintro rfl
        rw [hx] at hy
        obtain rfl := Option.some.inj hy
        exact hnr hr
      · simp at hl
    · simp at hl
  | tick =>
    simp only [step] at hl
    split at hl
    · obtain rfl := Option.some.inj hl; exact ⟨ha, t, x, hu, hx, hk, hp⟩
    · simp at hl
  | rotate =>
    simp only [step] at hl
    obtain rfl := Option.some.inj hl; exact ⟨ha, t, x, hu, hx, hk, hp⟩
  | connect => simp [step, hae] at hl
  | drain =>
    simp only [step] at hl
    split at hl
    · simp [hae] at hl
    · simp at hl
  | answer m ok => simp [step, hae] at hl
  | putEvent =>
    simp only [step] at hl
    split at hl
    · split at hl
      · obtain rfl := Option.some.inj hl
        exact ⟨⟨_, _, rfl⟩, t, x, hu, hx, hk, hp⟩
      · simp at hl
    · simp at hl
  | acked =>
    simp only [step] at hl
    split at hl
    · simp [hu] at hl
    · simp at hl
  | putConfig => simp [step, hae] at hl
  | putTrigger => simp [step, hae] at hl
  | uEvent =>
    simp only [step] at hl
    split at hl
    · simp [hu] at hl
    · simp at hl
  | uTrigger =>
    simp only [step] at hl
    split at hl
    · simp [hu] at hl
    · simp at hl
  | uDone t' =>
    simp only [step] at hl
    split at hl
    · simp [hu] at hl
    · simp at hl
  | uClosed =>
    simp only [step, hu, hx] at hl
    split at hl
    · rename_i hc
      rcases hp with ⟨m, n, h⟩ | ⟨⟨m, n, h⟩, _⟩ <;> simp [h] at hc
    · simp at hl
  | takeConfig =>
    simp only [step] at hl
    split at hl
    · obtain rfl := Option.some.inj hl; exact ⟨ha, t, x, hu, hx, hk, hp⟩
    · simp at hl
  | takeFlush =>
    simp only [step] at hl
    split at hl
    · obtain rfl := Option.some.inj hl; exact ⟨ha, t, x, hu, hx, hk, hp⟩
    · simp at hl
  | fPut =>
    simp only [step] at hl
    split at hl
    · rename_i hc
      obtain rfl := Option.some.inj hl
      refine ⟨ha, t, x, hu, hx, hk, ?_⟩
      rcases hp with h | ⟨_, h⟩
      · exact .inl h
      · exact absurd hc.2 h
    · simp at hl
  | fResponse =>
    simp only [step] at hl
    split at hl
    · split at hl
      · obtain rfl := Option.some.inj hl
        split
        · exact ⟨ha, t, x, hu, hx, hk, hp⟩
        · exact ⟨ha, t, x, hu, hx, hk, hp⟩
      · simp at hl
    · simp at hl
  | tPut t' =>
    simp only [step] at hl
    split at hl
    · rename_i y hy
      split at hl
      · rename_i m n hph
        split at hl
        · rename_i hd
          obtain rfl := Option.some.inj hl
          have hne : t' ≠ t := by
            rintro rfl
            rw [hx] at hy
            obtain rfl := Option.some.inj hy
            exact hns m n hph hd
          refine ⟨ha, t, x, hu, ?_, hk, ?_⟩
          · simp only [setTask]
            rw [List.getElem?_set_ne hne]; exact hx
          · rcases hp with h | ⟨h, _⟩
            · exact .inl h
            · exact .inr ⟨h, by simp⟩
        · simp at hl
      · simp at hl
    · simp at hl
  | tWake t' =>
    simp only [step] at hl
    split at hl
    · rename_i y hy
      split at hl
      · rename_i m n hph
        obtain rfl := Option.some.inj hl
        refine UploadCycle.setTask_ne ha hu hx hk hp t' _ ?_
        rintro rfl
        rw [hx] at hy
        obtain rfl := Option.some.inj hy
        exact hnb m n hph
      · simp at hl
    · simp at hl
  | tCancel t' =>
    simp only [step] at hl
    split at hl
    · rename_i y hy
      split at hl
      · rename_i hc
        obtain rfl := Option.some.inj hl
        refine UploadCycle.setTask_ne ha hu hx hk hp t' _ ?_
        rintro rfl
        rw [hx] at hy
        obtain rfl := Option.some.inj hy
        simp [cancellable, hk] at hc
      · simp at hl
    · simp at hl

/-- What the stats flusher and the log buffer wait for when nothing is taken from the channel. -/
def FlushHangs (s : St) : Prop :=
  s.l = .flushing ∧ s.f = .sending ∧ s.dataQ ≠ none

/-- While the API task takes nothing from the channel a blocking call does not return. -/
theorem flushHangs_step (R : Nat) (s s' : St) (l : Label) (h : FlushHangs s)
    (ha : s.a ≠ .idle ∨ s.up = false) (hl : step R s l = some s') : FlushHangs s' := by
  obtain ⟨h1, h2, h3⟩ := h
  have hd : ∃ m, s.dataQ = some m := by
    cases hd : s.dataQ with
    | none => exact absurd hd h3
    | some m => exact ⟨m, rfl⟩
  obtain ⟨m0, hd⟩ := hd
  cases l with
  | down =>
    simp only [step] at hl
    split at hl
    · rename_i hc
      rcases ha with ha | ha
      · exact absurd hc.1 ha
      · rw [hc.2] at ha; simp at ha
    · simp at hl
  | drain =>
    simp only [step, hd] at hl
    split at hl
    · rename_i hc
      rcases ha with ha | ha
      · exact absurd hc.1 ha
      · rw [hc.2] at ha; simp at ha
    · simp at hl
  | answer m ok =>
    simp only [step] at hl
    split at hl
    · rename_i hc
      rcases ha with ha | ha
      · exact absurd hc.1 ha
      · rw [hc.2.1] at ha; simp at ha
    · simp at hl
  | uEvent =>
    simp only [step] at hl
    split at hl
    · rename_i e he
      split at hl
      · rename_i hu
        obtain ⟨ts, shs, tb, st, u, eq, _⟩ := handleEvent_W R { s with evQ := none } e hu
        obtain rfl := Option.some.inj hl
        rw [eq]; exact ⟨h1, h2, h3⟩
      · simp at hl
    · simp at hl
  | uTrigger =>
    simp only [step] at hl
    split at hl
    · rename_i req he
      split at hl
      · obtain ⟨ts, shs, act, eq, _⟩ := trigAll_W R req { s with trigQ := none }
        obtain rfl := Option.some.inj hl
        rw [eq]; exact ⟨h1, h2, h3⟩
      · simp at hl
    · simp at hl
  | blockingCall => simp [step, h1] at hl
  | matched req => simp [step, h1] at hl
  | tick => simp [step, h2] at hl
  | takeConfig => simp [step, h1] at hl
  | takeFlush => simp [step, h2] at hl
  | fPut => simp [step, hd] at hl
  | fResponse =>
    simp only [step] at hl
    split at hl
    · simp [h2] at hl
    · simp at hl
  | uClosed =>
    simp only [step] at hl
    split at hl
    · split at hl
      · split at hl
        · obtain rfl := Option.some.inj hl; exact ⟨h1, h2, h3⟩
        · simp at hl
      · obtain rfl := Option.some.inj hl; exact ⟨h1, h2, h3⟩
    · simp at hl
  | tPut t =>
    simp only [step] at hl
    split at hl
    · split at hl
      · split at hl
        · rename_i hn; rw [hd] at hn; simp at hn
        · simp at hl
      · simp at hl
    · simp at hl
  | _ =>
    simp only [step] at hl
    repeat' split at hl
    all_goals first
      | (obtain rfl := Option.some.inj hl; exact ⟨h1, h2, h3⟩)
      | simp at hl

theorem flushCycle_step (R : Nat) (s s' : St) (l : Label) (h : FlushCycle s)
    (hl : step R s l = some s') : FlushCycle s' := by
  obtain ⟨ha, hc, h1, h2, h3⟩ := h
  obtain ⟨g1, g2, g3⟩ := flushHangs_step R s s' l ⟨h1, h2, h3⟩ (.inl (by simp [ha])) hl
  have key : s'.a = s.a ∧ s'.cfgQ = s.cfgQ := by
    cases l with
    | uEvent =>
      simp only [step] at hl
      split at hl
      · rename_i e he
        split at hl
        · rename_i hu
          obtain ⟨ts, shs, tb, st, u, eq, _⟩ := handleEvent_W R { s with evQ := none } e hu
          obtain rfl := Option.some.inj hl
          rw [eq]; exact ⟨rfl, rfl⟩
        · simp at hl
      · simp at hl
    | uTrigger =>
      simp only [step] at hl
      split at hl
      · rename_i req he
        split at hl
        · obtain ⟨ts, shs, act, eq, _⟩ := trigAll_W R req { s with trigQ := none }
          obtain rfl := Option.some.inj hl
          rw [eq]; exact ⟨rfl, rfl⟩
        · simp at hl
      · simp at hl
    | down => simp [step, ha] at hl
    | kill => simp [step, ha] at hl
    | config evs ok => simp [step, ha] at hl
    | serverFlush req => simp [step, ha] at hl
    | connect => simp [step, ha] at hl
    | drain =>
      simp only [step] at hl
      split at hl
      · simp [ha] at hl
      · simp at hl
    | answer m ok => simp [step, ha] at hl
    | putEvent => simp [step, ha] at hl
    | acked => simp [step, ha] at hl
    | putConfig => simp [step, hc] at hl
    | putTrigger => simp [step, ha] at hl
    | takeConfig => simp [step, h1] at hl
    | fResponse =>
      simp only [step] at hl
      split at hl
      · simp [h2] at hl
      · simp at hl
    | matched req => simp [step, h1] at hl
    | _ =>
      simp only [step] at hl
      repeat' split at hl
      all_goals first
        | (obtain rfl := Option.some.inj hl; exact ⟨rfl, rfl⟩)
        | simp at hl
  exact ⟨key.1.trans ha, key.2.trans hc, g1, g2, g3⟩

/-- The killed client: the API task only waits for the end of the process. -/
theorem killed_step (R : Nat) (s s' : St) (l : Label)
    (h : s.killed = true ∧ s.up = false ∧ s.started = true ∧ s.a = .idle)
    (hl : step R s l = some s') :
    s'.killed = true ∧ s'.up = false ∧ s'.started = true ∧ s'.a = .idle := by
  obtain ⟨h1, h2, h3, h4⟩ := h
  cases l with
  | down => simp [step, h2] at hl
  | config evs ok => simp [step, h2, h3] at hl
  | serverFlush req => simp [step, h2] at hl
  | connect => simp [step, h1] at hl
  | drain =>
    simp only [step] at hl
    split at hl
    · simp [h2] at hl
    · simp at hl
  | answer m ok => simp [step, h2] at hl
  | kill =>
    simp only [step] at hl
    split at hl
    · obtain rfl := Option.some.inj hl; exact ⟨rfl, h2, rfl, h4⟩
    · simp at hl
  | putEvent => simp [step, h4] at hl
  | acked => simp [step, h4] at hl
  | putConfig => simp [step, h4] at hl
  | putTrigger => simp [step, h4] at hl
  | matched req =>
    simp only [step] at hl
    split at hl
    · obtain rfl := Option.some.inj hl
      split <;> exact ⟨h1, h2, h3, h4⟩
    · simp at hl
  | fResponse =>
    simp only [step] at hl
    split at hl
    · split at hl
      · obtain rfl := Option.some.inj hl
        split <;> exact ⟨h1, h2, h3, h4⟩
      · simp at hl
    · simp at hl
  | uEvent =>
    simp only [step] at hl
    split at hl
    · rename_i e he
      split at hl
      · rename_i hu
        obtain ⟨ts, shs, tb, st, u, eq, _⟩ := handleEvent_W R { s with evQ := none } e hu
        obtain rfl := Option.some.inj hl
        rw [eq]; exact ⟨h1, h2, h3, h4⟩
      · simp at hl
    · simp at hl
  | uTrigger =>
    simp only [step] at hl
    split at hl
    · rename_i req he
      split at hl
      · obtain ⟨ts, shs, act, eq, _⟩ := trigAll_W R req { s with trigQ := none }
        obtain rfl := Option.some.inj hl
        rw [eq]; exact ⟨h1, h2, h3, h4⟩
      · simp at hl
    · simp at hl
  | _ =>
    simp only [step] at hl
    repeat' split at hl
    all_goals first
      | (obtain rfl := Option.some.inj hl; exact ⟨h1, h2, h3, h4⟩)
      | simp at hl

theorem run_induct (R : Nat) (P : St → Prop) (hp : ∀ s s' l, P s → step R s l = some s' → P s') :
    ∀ (ls : List Label) (s s' : St), P s → run R s ls = some s' → P s' := by
  intro ls
  induction ls with
  | nil => intro s s' h hr; simp only [run, Option.some.injEq] at hr; subst hr; exact h
  | cons l ls ih =>
    intro s s' h hr
    simp only [run] at hr
    split at hr
    · rename_i s1 h1
      exact ih s1 s' (hp s s1 l h h1) hr
    · simp at hr

/-- A triggered upload is under way when a configuration removes its buffer. -/
def Ex.removeWhileUploading : List Label :=
  [.connect, .config [.trigCreated 7] true, .putEvent, .uEvent, .acked, .putConfig, .takeConfig,
   .matched [(7, 2)], .uTrigger, .tPut 0, .drain, .config [.removed 7] true, .putEvent, .uEvent]

/-- Two configurations, a blocking call between them, a stats upload waiting behind another
upload. -/
def Ex.flushWhileUpdating : List Label :=
  [.connect, .blockingCall, .config [] true, .acked, .putConfig, .intent, .config [] true, .acked,
   .tPut 0, .tick]

/-- The client is killed at the start; a buffer from the cached configuration has logs. -/
def Ex.killedAndBlocking : List Label :=
  [.config [.contCreated 3] true, .putEvent, .uEvent, .acked, .putConfig, .takeConfig, .kill,
   .record 0, .tPut 0, .tick, .blockingCall]

/-- **C71 (violated).** A configuration that removes a buffer while a triggered upload of it is
under way leaves the API task, the upload manager and the upload waiting for each other: whatever
happens afterwards, the API task never sends or receives anything again. -/
theorem C71_trigger_upload_violated (R : Nat) :
    ∃ s, run R {} Ex.removeWhileUploading = some s ∧ s.up = true ∧ s.killed = false ∧
      ∀ ls s', run R s ls = some s' → UploadCycle s' ∧ s'.a ≠ .idle := by
  refine ⟨_, rfl, rfl, rfl, ?_⟩
  intro ls s' hr
  have h := run_induct R UploadCycle (uploadCycle_step R) ls _ s' (by
    refine ⟨⟨_, _, rfl⟩, 0, _, rfl, rfl, rfl, .inl ⟨_, _, rfl⟩⟩) hr
  refine ⟨h, ?_⟩
  obtain ⟨⟨evs, ok, he⟩, _⟩ := h
  simp [he]

/-- **C71 (violated).** A blocking call that meets a stats upload waiting to be sent and a second
configuration update leaves the API task, the log buffer and the stats flusher waiting for each
other for ever: the call never returns. -/
theorem C71_blocking_call_violated (R : Nat) :
    ∃ s, run R {} Ex.flushWhileUpdating = some s ∧ s.up = true ∧ s.killed = false ∧
      ∀ ls s', run R s ls = some s' → FlushCycle s' ∧ s'.a ≠ .idle ∧ s'.l ≠ .idle := by
  refine ⟨_, rfl, rfl, rfl, ?_⟩
  intro ls s' hr
  have h := run_induct R FlushCycle (flushCycle_step R) ls _ s'
    ⟨rfl, rfl, rfl, rfl, by simp⟩ hr
  exact ⟨h, by simp [h.1], by simp [h.2.2.1]⟩

/-- **C71 (violated).** After the client was killed a blocking call may never return. -/
theorem C71_killed_violated (R : Nat) :
    ∃ s, run R {} Ex.killedAndBlocking = some s ∧ s.killed = true ∧
      ∀ ls s', run R s ls = some s' → s'.l ≠ .idle := by
  refine ⟨_, rfl, rfl, ?_⟩
  intro ls s' hr
  have h := run_induct R
    (fun s => (s.killed = true ∧ s.up = false ∧ s.started = true ∧ s.a = .idle) ∧ FlushHangs s)
    (fun s s' l h hl => ⟨killed_step R s s' l h.1 hl, flushHangs_step R s s' l h.2 (.inr h.1.2.1) hl⟩)
    ls _ s' ⟨⟨rfl, rfl, rfl, rfl⟩, rfl, rfl, by simp⟩ hr
  simp [h.2.1]

/-- The outcome of `C71_comes_to_rest_partial` for the two circular waits is what it says: both
states are reached, so neither case can be left out. -/
example : ∃ s, Reach 3 s ∧ UploadCycle s := by
  obtain ⟨s, h, _, _, hc⟩ := C71_trigger_upload_violated 3
  exact ⟨s, ⟨_, h⟩, (hc [] s rfl).1⟩

/-- A run that comes to rest with everything done: a configuration adds a continuous and a trigger
buffer, the trigger buffer is uploaded in two batches, one of which fails once. -/
example : ∃ s, run 1 {} [.connect, .config [.contCreated 3, .trigCreated 7] true, .putEvent, .uEvent,
    .putEvent, .uEvent, .acked, .putConfig, .takeConfig, .matched [(7, 2)], .uTrigger, .tPut 1, .drain,
    .answer (.logs 1) false, .tWake 1, .tPut 1, .drain, .answer (.logs 1) true, .tPut 1, .drain,
    .answer (.logs 1) true, .uDone 1] = some s ∧ s.a = .idle ∧ s.active = [] ∧
    s.tasks.map (·.phase) = [.reading, .gone] := ⟨_, rfl, rfl, rfl, rfl⟩

/-- A configuration may remove a buffer whose continuous upload is waiting: that upload is
cancelled. -/
example : ∃ s, run 1 {} [.connect, .config [.contCreated 3] true, .putEvent, .uEvent, .acked,
    .putConfig, .record 0, .tPut 0, .config [.removed 3] true, .putEvent, .uEvent, .tCancel 0, .uClosed,
    .acked, .takeConfig, .putConfig] = some s ∧ s.a = .idle := ⟨_, rfl, rfl⟩

end Verif.Tasks
