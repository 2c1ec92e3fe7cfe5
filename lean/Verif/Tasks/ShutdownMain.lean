import Verif.Tasks.ShutdownProps

/-!
# C77: shutting down the logger completes, and afterwards nothing happens any more

For the code as it is: once a blocking shutdown was called and no more input arrives, the tasks make
only so many steps (`C77_steps_bounded`) and then all of them have ended and every call has returned,
unless the circular wait of C71 over a blocking call was run into (`C77_stuck_partial`,
`C77_completes_partial`), which a shutdown does not end (`C77_flush_violated`).  When the first call
has returned everything has ended for good (`C77_returned_partial`, `C77_after`); a second call does
not wait (`C77_second_call_violated`).  A call that is not to block does nothing at all
(`C77_nonblocking_violated`).
-/

namespace Verif.Tasks

/-- Every task of the logger has ended and no upload is left. -/
structure AllOver (d : Sd) : Prop where
  a : d.aEnd = true
  u : d.uEnd = true
  l : d.lEnd = true
  f : d.fEnd = true
  tasks : ∀ x ∈ d.s.tasks, x.kind = .other ∨ x.phase = .ended ∨ x.phase = .gone

theorem closed_iff (d : Sd) : d.closed = true ↔ AllOver d := by
  simp only [Sd.closed, Bool.and_eq_true, List.all_eq_true, Task.over, Bool.or_eq_true, beq_iff_eq]
  constructor
  · rintro ⟨⟨⟨⟨h1, h2⟩, h3⟩, h4⟩, h5⟩
    exact ⟨h1, h2, h3, h4, fun x hx => by rcases h5 x hx with (h | h) | h <;> simp [h]⟩
  · intro h
    exact ⟨⟨⟨⟨h.a, h.u⟩, h.l⟩, h.f⟩, fun x hx => by rcases h.tasks x hx with h | h | h <;> simp [h]⟩

/-- No task can make a step. -/
def SStuck (R : Nat) (d : Sd) : Prop := ∀ l : SLabel, l.inside = true → d.step R l = none

/-- An upload which is to stop can make a step until it is over. -/
theorem upload_steps (R : Nat) (d : Sd) (h : SInv d) (hp : d.pending = true) (hst : SStuck R d) (t : Nat)
    (x : Task) (hx : d.s.tasks[t]? = some x) (hk : x.kind ≠ .other) (hs : x.kind ≠ .trigger → x.shut = true) :
    x.phase = .ended ∨ x.phase = .gone := by
  have hc : d.cancelled = true := h.cancelled_iff.mpr hp
  have h1 := hst (.tCanceled t) rfl
  have h2 := hst (.base (.tWake t)) rfl
  have h3 := hst (.base (.tCancel t)) rfl
  simp only [Sd.step, hx, Sd.may, Tasks.step, if_true] at h1 h2 h3
  cases hph : x.phase with
  | ended => exact .inl rfl
  | gone => exact .inr rfl
  | sending m n => simp [mayCancel, hph, hc, hk] at h1
  | waiting m n => simp [mayCancel, hph, hc, hk] at h1
  | backoff m n => simp [hph] at h2
  | reading =>
    by_cases ht : x.kind = .trigger
    · exact absurd hph (h.inv.trig t x hx ht)
    · simp [cancellable, hs ht, ht, hph] at h3

/-- **C77 (partial).** When a shutdown was signalled and no task can make a step, every task has ended
and every call has returned, or the API task, the log buffer and the stats flusher wait for each
other.  Missing for the full claim: that the latter is never reached (it is, see
`C77_flush_violated`). -/
theorem C77_stuck_partial (R : Nat) (d : Sd) (hr : SReach R d) (hp : d.pending = true) (hst : SStuck R d) :
    (AllOver d ∧ ∀ c ∈ d.calls, c.returned = true) ∨
    (FlushCycle d.s ∧ d.aEnd = false ∧ d.lEnd = false ∧ d.fEnd = false) := by
  have h := hr.inv
  have hc : d.cancelled = true := h.cancelled_iff.mpr hp
  -- the upload manager ends
  have hu : d.uEnd = true := by
    cases hue : d.uEnd with
    | true => rfl
    | false =>
      exfalso
      cases hus : d.uShut with
      | none =>
        cases hu : d.s.u with
        | idle =>
          have := hst (.uStop (d.s.shutdowns.map (·.2))) rfl
          simp only [Sd.step] at this
          rw [if_pos ⟨hc, hue, hus, hu, List.isPerm_iff.mpr (List.Perm.refl _)⟩] at this
          simp at this
        | closing t =>
          obtain ⟨_, x, hx, hs⟩ := h.inv.cls t hu
          have hcl := hst (.base .uClosed) rfl
          simp only [Sd.step, Sd.may, Tasks.step, hu, hx, hue, hus] at hcl
          have hcl : ¬ (x.phase = .ended ∨ x.phase = .gone) := by
            intro hph; simp [hph] at hcl
          by_cases hko : x.kind = .other
          · have h3 := hst (.base (.tCancel t)) rfl
            rw [not_or] at hcl
            simp [Sd.step, Sd.may, Tasks.step, hx, cancellable, hs, hko, hcl.1, hcl.2] at h3
          · exact hcl (upload_steps R d h hp hst t x hx hko (fun _ => hs))
      | some l =>
        cases l with
        | nil =>
          have := hst .uFinish rfl
          simp [Sd.step, hue, hus] at this
        | cons t ts =>
          obtain ⟨x, hx, hs⟩ := h.ushh t ts hus
          have hn := hst .uNext rfl
          simp only [Sd.step, hus, hx, hue, true_and] at hn
          have hcl : ¬ (x.phase = .ended ∨ x.phase = .gone) := by
            intro hph; rw [if_pos hph] at hn; simp at hn
          by_cases hko : x.kind = .other
          · have h3 := hst (.base (.tCancel t)) rfl
            rw [not_or] at hcl
            simp [Sd.step, Sd.may, Tasks.step, hx, cancellable, hs, hko, hcl.1, hcl.2] at h3
          · exact hcl (upload_steps R d h hp hst t x hx hko (fun _ => hs))
  obtain ⟨hev, htr, hus⟩ := h.uend hu
  have hui : d.s.u = .idle := h.ush (by simp [hus])
  -- no upload is left
  have htasks : ∀ x ∈ d.s.tasks, x.kind = .other ∨ x.phase = .ended ∨ x.phase = .gone := by
    intro x hx
    obtain ⟨t, hx⟩ := List.getElem?_of_mem hx
    by_cases hko : x.kind = .other
    · exact .inl hko
    · right
      by_cases ho : x.over = true
      · simp only [Task.over, Bool.or_eq_true, beq_iff_eq] at ho
        rcases ho with (ho | ho) | ho
        · exact absurd ho hko
        · exact .inl ho
        · exact .inr ho
      · refine upload_steps R d h hp hst t x hx hko ?_
        intro hkt
        have hkk : x.kind = .continuous ∨ x.kind = .stream := by
          cases hk : x.kind <;> simp_all
        rcases h.own t x hx hkk (by simpa using ho) with h | ⟨h, _⟩
        · exact h
        · rw [hu] at h; simp at h
  cases hae : d.aEnd with
  | false =>
    right
    cases ha : d.s.a with
    | idle =>
      have := hst .aStop rfl
      simp [Sd.step, hc, hae, ha] at this
    | sendEvents evs ok =>
      cases evs with
      | nil =>
        have := hst (.base .acked) rfl
        simp [Sd.step, Sd.may, Tasks.step, hae, ha, hev, hui] at this
      | cons e es =>
        have := hst .aRefused rfl
        simp [Sd.step, hae, ha, hu] at this
    | sendTrigger req =>
      have := hst .aFail rfl
      simp [Sd.step, hae, ha, hu] at this
    | sendConfig =>
      have hle : d.lEnd = false := by
        cases hle : d.lEnd with
        | false => rfl
        | true => have := hst .aConfigRefused rfl; simp [Sd.step, hae, ha, hle] at this
      have hl : d.s.l = .flushing := by
        cases hl : d.s.l with
        | flushing => rfl
        | idle => have := hst .lStop rfl; simp [Sd.step, hc, hle, hl] at this
      have hfe : d.fEnd = false := by
        cases hfe : d.fEnd with
        | false => rfl
        | true => have := hst .lRefused rfl; simp [Sd.step, hle, hfe, hl] at this
      have hf : d.s.f = .sending := by
        cases hf : d.s.f with
        | sending => rfl
        | idle => have := hst .fStop rfl; simp [Sd.step, hc, hfe, hf] at this
      have hcfg : d.s.cfgQ = true := by
        cases hcf : d.s.cfgQ with
        | true => rfl
        | false =>
          have := hst (.base .putConfig) rfl
          simp [Sd.step, Sd.may, Tasks.step, hae, hle, ha, hcf] at this
      have hdq : d.s.dataQ ≠ none := by
        intro hd
        have := hst (.base .fPut) rfl
        simp [Sd.step, Sd.may, Tasks.step, hae, hfe, hf, hd] at this
      exact ⟨⟨ha, hcfg, hl, hf, hdq⟩, rfl, hle, hfe⟩
  | true =>
    left
    have hfe : d.fEnd = true := by
      cases hfe : d.fEnd with
      | true => rfl
      | false =>
        exfalso
        cases hf : d.s.f with
        | idle => have := hst .fStop rfl; simp [Sd.step, hc, hfe, hf] at this
        | sending => have := hst .fRefused rfl; simp [Sd.step, hae, hfe, hf] at this
    have hle : d.lEnd = true := by
      cases hle : d.lEnd with
      | true => rfl
      | false =>
        exfalso
        cases hl : d.s.l with
        | idle => have := hst .lStop rfl; simp [Sd.step, hc, hle, hl] at this
        | flushing => have := hst .lRefused rfl; simp [Sd.step, hfe, hle, hl] at this
    have hover : AllOver d := ⟨hae, hu, hle, hfe, htasks⟩
    refine ⟨hover, ?_⟩
    intro c hcm
    obtain ⟨i, hi⟩ := List.getElem?_of_mem hcm
    have := hst (.ret i) rfl
    simp only [Sd.step, hi, (closed_iff d).mpr hover, and_true] at this
    cases hret : c.returned with
    | true => rfl
    | false => simp [hret] at this

/-! ## Only so many steps -/

/-- How many more uploads may be started from what was already requested, and those which run. -/
def pot (s : St) : Nat :=
  s.shutdowns.length + (match s.a with
    | .sendEvents evs _ => evs.length
    | .sendTrigger req => req.length
    | _ => 0) + (if s.evQ = none then 0 else 1)
  + (match s.trigQ with | none => 0 | some req => req.length)

theorem erase_len (m : List (Nat × Nat)) (id : Nat) : (erase m id).length ≤ m.length :=
  List.length_filter_le _ _

theorem spawn_len (s : St) (x : Task) : (spawn s x).shutdowns.length ≤ s.shutdowns.length + 1 := by
  obtain ⟨ts, e, _⟩ := spawn_eq s x
  rw [e]
  have := erase_len s.shutdowns x.buf
  simp only [List.length_cons]; omega

theorem trigAll_len (R : Nat) : ∀ (req : List (Nat × Nat)) (s : St),
    (req.foldl (trigOne R) s).shutdowns.length ≤ s.shutdowns.length + req.length := by
  intro req
  induction req with
  | nil => intro s; simp
  | cons p req ih =>
    intro s
    have h1 := ih (trigOne R s p)
    have h2 : (trigOne R s p).shutdowns.length ≤ s.shutdowns.length + 1 := by
      unfold trigOne
      split
      · omega
      · split
        · exact spawn_len s _
        · omega
    simp only [List.foldl_cons, List.length_cons]
    omega

theorem handleEvent_len (s : St) (e : Event) :
    (handleEvent s e).shutdowns.length ≤ s.shutdowns.length + 1 := by
  cases e with
  | contCreated id => exact spawn_len s _
  | trigCreated id => simp [handleEvent]
  | removed id =>
    simp only [handleEvent]
    split
    · have := erase_len s.shutdowns id
      simp only; omega
    · simp
  | streamAdded =>
    simp only [handleEvent]
    split
    · rename_i old _
      obtain ⟨ts, e⟩ := shutTask_eq s old
      simp only [e]; omega
    · simp
  | streamRemoved =>
    simp only [handleEvent]
    split
    · rename_i old _
      obtain ⟨ts, e⟩ := shutTask_eq s old
      simp only [e]; omega
    · simp

theorem pot_step (R : Nat) (s s' : St) (l : Label) (hi : l.inside = true) (hl : step R s l = some s') :
    pot s' ≤ pot s := by
  cases l with
  | down => simp [Label.inside] at hi
  | kill => simp [Label.inside] at hi
  | config evs ok => simp [Label.inside] at hi
  | serverFlush req => simp [Label.inside] at hi
  | blockingCall => simp [Label.inside] at hi
  | matched req => simp [Label.inside] at hi
  | intent => simp [Label.inside] at hi
  | record t => simp [Label.inside] at hi
  | tick => simp [Label.inside] at hi
  | rotate => simp [Label.inside] at hi
  | answer m ok =>
    simp only [step] at hl
    split at hl
    · obtain ⟨ts, rx, e⟩ := resolve_eq R { s with sent := s.sent.erase m } m ok
      obtain rfl := Option.some.inj hl
      rw [e]; exact Nat.le_refl _
    · simp at hl
  | putEvent =>
    simp only [step] at hl
    split at hl
    · rename_i e es ok ha
      split at hl
      · rename_i he
        obtain rfl := Option.some.inj hl
        simp [pot, ha, he]; omega
      · simp at hl
    · simp at hl
  | acked =>
    simp only [step] at hl
    split at hl
    · rename_i ok ha
      split at hl
      · obtain rfl := Option.some.inj hl
        cases ok <;> simp [pot, ha]
      · simp at hl
    · simp at hl
  | putConfig =>
    simp only [step] at hl
    split at hl
    · rename_i hc
      obtain rfl := Option.some.inj hl
      simp [pot, hc.1]
    · simp at hl
  | putTrigger =>
    simp only [step] at hl
    split at hl
    · rename_i req ha
      split at hl
      · rename_i he
        obtain rfl := Option.some.inj hl
        simp [pot, ha, he]; omega
      · simp at hl
    · simp at hl
  | uEvent =>
    simp only [step] at hl
    split at hl
    · rename_i e he
      split at hl
      · rename_i hu
        obtain ⟨ts, shs, tb, st, u, eq, _⟩ := handleEvent_W R { s with evQ := none } e hu
        have hlen := handleEvent_len { s with evQ := none } e
        obtain rfl := Option.some.inj hl
        rw [eq] at hlen ⊢
        simp only [pot, he] at hlen ⊢
        simp only [reduceCtorEq, if_false, if_true]
        omega
      · simp at hl
    · simp at hl
  | uTrigger =>
    simp only [step] at hl
    split at hl
    · rename_i req he
      split at hl
      · obtain ⟨ts, shs, act, eq, _⟩ := trigAll_W R req { s with trigQ := none }
        have hlen := trigAll_len R req { s with trigQ := none }
        obtain rfl := Option.some.inj hl
        rw [eq] at hlen ⊢
        simp only [pot, he] at hlen ⊢
        omega
      · simp at hl
    · simp at hl
  | fResponse =>
    simp only [step] at hl
    split at hl
    · split at hl
      · obtain rfl := Option.some.inj hl
        split <;> exact Nat.le_refl _
      · simp at hl
    · simp at hl
  | _ =>
    simp only [step] at hl
    repeat' split at hl
    all_goals first
      | (obtain rfl := Option.some.inj hl; exact Nat.le_refl _)
      | simp at hl

/-- What the upload manager has to do until it ends. -/
def uW (d : Sd) : Nat :=
  if d.uEnd then 0 else match d.uShut with
    | none => pot d.s + 3
    | some l => l.length + 1

/-- The bound. -/
def sweight (R : Nat) (d : Sd) : Nat :=
  weight R d.s + uW d + (if d.aEnd then 0 else 1) + (if d.lEnd then 0 else 1) + (if d.fEnd then 0 else 1)
  + (d.calls.filter fun c => !c.returned).length

theorem shutAll_W (R : Nat) : ∀ (ts : List Nat) (s : St),
    tasksW R (ts.foldl shutTask s).tasks = tasksW R s.tasks := by
  intro ts
  induction ts with
  | nil => intro s; rfl
  | cons t ts ih => intro s; rw [List.foldl_cons, ih, shutTask_W]

theorem shutAll_weight (R : Nat) (ts : List Nat) (s : St) : weight R (ts.foldl shutTask s) = weight R s := by
  have hW := shutAll_W R ts s
  obtain ⟨tasks, e⟩ := shutAll_eq ts s
  rw [e] at hW ⊢
  simp only [weight] at hW ⊢
  omega

theorem fails_W (R : Nat) : ∀ (ms : List Msg) (s : St),
    ∃ ts rx, ms.foldl (fun s m => resolve R s m false) s = { s with tasks := ts, rx := rx } ∧
      tasksW R ts + rxW rx ≤ tasksW R s.tasks + rxW s.rx := by
  intro ms
  induction ms with
  | nil => intro s; exact ⟨s.tasks, s.rx, rfl, Nat.le_refl _⟩
  | cons m ms ih =>
    intro s
    obtain ⟨ts1, rx1, e1, w1⟩ := resolve_W R s m false
    obtain ⟨ts2, rx2, e2, w2⟩ := ih (resolve R s m false)
    refine ⟨ts2, rx2, by rw [List.foldl_cons, e2, e1], ?_⟩
    rw [e1] at w2
    simp only at w2
    omega

theorem aGone_W (R : Nat) (s : St) : ∃ ts rx, aGone R s = { s with tasks := ts, rx := rx, sent := [], dataQ := none } ∧
    tasksW R ts + rxW rx ≤ tasksW R s.tasks + rxW s.rx := by
  obtain ⟨ts, rx, e, w⟩ := fails_W R (s.sent ++ s.dataQ.toList) s
  exact ⟨ts, rx, by unfold aGone; rw [e], w⟩

theorem cancelPhase_W (R : Nat) (d : Sd) (x : Task) (hm : mayCancel d x = true) :
    phaseW R (cancelPhase R x) < phaseW R x.phase := by
  have key : ∀ m, phaseW R (nextPhase R x.kind m) < m * (5 * R + 5) + 2 := by
    intro m
    cases x.kind with
    | continuous => simp [nextPhase, phaseW]
    | stream => simp [nextPhase, phaseW]
    | other => simp [nextPhase, phaseW]
    | trigger =>
      cases m with
      | zero => simp [nextPhase, phaseW]
      | succ m => simp only [nextPhase, phaseW, Nat.succ_mul]; omega
  unfold mayCancel at hm
  unfold cancelPhase
  cases hp : x.phase with
  | sending m n => have := key m; simp only [phaseW_sending]; omega
  | waiting m n => have := key m; simp only [phaseW_waiting]; omega
  | _ => simp [hp] at hm

theorem ret_len (cs : List Call) (i : Nat) (c : Call) (hc : cs[i]? = some c) (hr : c.returned = false) :
    ((cs.set i { c with returned := true }).filter fun c => !c.returned).length <
      (cs.filter fun c => !c.returned).length := by
  induction cs generalizing i with
  | nil => simp at hc
  | cons b cs ih =>
    cases i with
    | zero =>
      simp only [List.getElem?_cons_zero, Option.some.injEq] at hc
      subst hc
      simp [hr]
    | succ i =>
      simp only [List.getElem?_cons_succ] at hc
      have := ih i hc
      simp only [List.set_cons_succ, List.filter_cons]
      cases b.returned <;> simp <;> omega

theorem sweight_step (R : Nat) (d d' : Sd) (l : SLabel) (hi : l.inside = true) (hl : d.step R l = some d') :
    sweight R d' < sweight R d := by
  cases l with
  | base l =>
    simp only [Sd.step] at hl
    split at hl
    · cases hs : step R d.s l with
      | none => simp [hs] at hl
      | some s' =>
        simp only [hs, Option.map_some, Option.some.injEq] at hl
        subst hl
        have hw := weight_step R d.s s' l hi hs
        have hp := pot_step R d.s s' l hi hs
        have hu : uW { d with s := s' } ≤ uW d := by
          unfold uW
          simp only
          split
          · exact Nat.le_refl _
          · split <;> omega
        simp only [sweight]
        omega
    · simp at hl
  | call b => simp [SLabel.inside] at hi
  | ret i =>
    simp only [Sd.step] at hl
    split at hl
    · rename_i c hc
      split at hl
      · rename_i hr
        obtain rfl := Option.some.inj hl
        have := ret_len d.calls i c hc hr.1
        simp only [sweight, uW] at *
        omega
      · simp at hl
    · simp at hl
  | aStop =>
    simp only [Sd.step] at hl
    split at hl
    · rename_i hc
      obtain rfl := Option.some.inj hl
      obtain ⟨ts, rx, e, w⟩ := aGone_W R d.s
      have hw : weight R (aGone R d.s) ≤ weight R d.s := by
        rw [e]; simp only [weight, List.length_nil, if_true]; omega
      have hp : pot (aGone R d.s) = pot d.s := by rw [e]; rfl
      simp only [sweight, uW, hp, hc.2.1, if_true, Bool.false_eq_true, if_false] at *
      omega
    · simp at hl
  | aRefused =>
    simp only [Sd.step] at hl
    split at hl
    · rename_i e es ok ha
      split at hl
      · rename_i hc
        obtain rfl := Option.some.inj hl
        simp [sweight, uW, hc.2, weight, ha, aW]
      · simp at hl
    · simp at hl
  | aConfigRefused =>
    simp only [Sd.step] at hl
    split at hl
    · rename_i hc
      obtain rfl := Option.some.inj hl
      simp [sweight, uW, pot, weight, hc.2.2, aW]
    · simp at hl
  | aFail =>
    simp only [Sd.step] at hl
    split at hl
    · split at hl
      · rename_i hc
        obtain rfl := Option.some.inj hl
        obtain ⟨ts, rx, e, w⟩ := aGone_W R d.s
        have hw : weight R { aGone R d.s with cfgQ := false, rx := .none } ≤ weight R d.s := by
          have h0 : rxW .none = 0 := rfl
          rw [e]; simp only [weight, List.length_nil, if_true, h0, Bool.false_eq_true, if_false]
          omega
        simp only [sweight, uW, hc.1, hc.2, if_true, Bool.false_eq_true, if_false] at *
        omega
      · simp at hl
    · simp at hl
  | uStop order =>
    simp only [Sd.step] at hl
    split at hl
    · rename_i hc
      obtain ⟨_, hue, hus, _, hp⟩ := hc
      obtain rfl := Option.some.inj hl
      have hlen := (List.isPerm_iff.mp hp).length_eq
      rw [List.length_map] at hlen
      have hw := shutAll_weight R (order.take 1) d.s
      have hpot : d.s.shutdowns.length ≤ pot d.s := by unfold pot; omega
      simp only [sweight, uW, signalHead_eq, hue, hus, Bool.false_eq_true, if_false] at *
      omega
    · simp at hl
  | uNext =>
    simp only [Sd.step] at hl
    split at hl
    · rename_i t ts hus
      split at hl
      · split at hl
        · rename_i hc
          obtain rfl := Option.some.inj hl
          have hw := shutAll_weight R (ts.take 1) d.s
          simp only [sweight, uW, signalHead_eq, hc.1, hus, Bool.false_eq_true, if_false, List.length_cons] at *
          omega
        · simp at hl
      · simp at hl
    · simp at hl
  | uFinish =>
    simp only [Sd.step] at hl
    split at hl
    · rename_i hc
      obtain rfl := Option.some.inj hl
      have hw := shutAll_weight R (d.s.shutdowns.map (·.2) ++ d.s.streamTask.toList) d.s
      have hw2 : weight R (uGone d.s) ≤ weight R d.s := by
        rw [← hw]
        obtain ⟨tasks, e⟩ := shutAll_eq (d.s.shutdowns.map (·.2) ++ d.s.streamTask.toList) d.s
        simp only [uGone, dropTriggers, e, weight, if_true]
        omega
      simp only [sweight, uW, hc.1, hc.2, Bool.false_eq_true, if_false, if_true, List.length_nil] at *
      omega
    · simp at hl
  | lStop =>
    simp only [Sd.step] at hl
    split at hl
    · rename_i hc
      obtain rfl := Option.some.inj hl
      have hw : weight R { d.s with cfgQ := false } ≤ weight R d.s := by
        simp only [weight]; split <;> simp
      have hp : pot { d.s with cfgQ := false } = pot d.s := rfl
      simp only [sweight, uW, hp, hc.2.1, Bool.false_eq_true, if_false, if_true] at *
      omega
    · simp at hl
  | lRefused =>
    simp only [Sd.step] at hl
    split at hl
    · rename_i hc
      obtain rfl := Option.some.inj hl
      have hw : weight R { d.s with l := .idle } < weight R d.s := by
        simp [weight, hc.2.2]
      have hp : pot { d.s with l := .idle } = pot d.s := rfl
      simp only [sweight, uW, hp] at *
      omega
    · simp at hl
  | fStop =>
    simp only [Sd.step] at hl
    split at hl
    · rename_i hc
      obtain rfl := Option.some.inj hl
      have hw : weight R { d.s with rx := .none } ≤ weight R d.s := by
        simp only [weight, rxW]; omega
      have hp : pot { d.s with rx := .none } = pot d.s := rfl
      simp only [sweight, uW, hp, hc.2.1, Bool.false_eq_true, if_false, if_true] at *
      omega
    · simp at hl
  | fRefused =>
    simp only [Sd.step] at hl
    split at hl
    · rename_i hc
      obtain rfl := Option.some.inj hl
      have hw : weight R { d.s with f := .idle } < weight R d.s := by
        simp [weight, hc.2.2]
      have hp : pot { d.s with f := .idle } = pot d.s := rfl
      simp only [sweight, uW, hp] at *
      omega
    · simp at hl
  | tCanceled t =>
    simp only [Sd.step] at hl
    split at hl
    · rename_i x hx
      split at hl
      · rename_i hm
        obtain rfl := Option.some.inj hl
        have hw := weight_setTask R d.s t x { x with phase := cancelPhase R x } hx
        have hc := cancelPhase_W R d x hm
        have hp : pot (setTask d.s t { x with phase := cancelPhase R x }) = pot d.s := rfl
        simp only [sweight, uW, hp] at *
        omega
      · simp at hl
    · simp at hl

/-- **C77 (steps).** Without input from outside the tasks make only so many steps, whatever is
signalled. -/
theorem C77_steps_bounded (R : Nat) : ∀ (ls : List SLabel) (d d' : Sd),
    (∀ l ∈ ls, l.inside = true) → d.run R ls = some d' → ls.length + sweight R d' ≤ sweight R d := by
  intro ls
  induction ls with
  | nil => intro d d' _ h; simp only [Sd.run, Option.some.injEq] at h; subst h; simp
  | cons l ls ih =>
    intro d d' hi h
    simp only [Sd.run] at h
    split at h
    · rename_i d1 h1
      have w := sweight_step R d d1 l (hi l (by simp)) h1
      have := ih d1 d' (fun l hl => hi l (by simp [hl])) h
      simp only [List.length_cons]; omega
    · simp at h

theorem pending_step (R : Nat) (d d' : Sd) (l : SLabel) (hp : d.pending = true) (hl : d.step R l = some d') :
    d'.pending = true := by
  cases l with
  | base l =>
    simp only [Sd.step] at hl
    split at hl
    · cases hs : step R d.s l with
      | none => simp [hs] at hl
      | some s' => simp only [hs, Option.map_some, Option.some.injEq] at hl; subst hl; exact hp
    · simp at hl
  | call b =>
    simp only [Sd.step] at hl
    split at hl
    · obtain rfl := Option.some.inj hl; simp [hp]
    · obtain rfl := Option.some.inj hl; exact hp
  | _ =>
    simp only [Sd.step] at hl
    repeat' split at hl
    all_goals first
      | (obtain rfl := Option.some.inj hl; exact hp)
      | simp at hl

/-- **C77 (partial).** From every state with a shutdown under way, when no more input arrives, every way
in which the tasks go on leads to the end of all of them and the return of all calls, or to the circular
wait of `FlushCycle`: it can always be reached, and whatever steps are made, at most `sweight` are, and
when no more are possible it was reached. -/
theorem C77_completes_partial (R : Nat) (d : Sd) (hr : SReach R d) (hp : d.pending = true) :
    (∃ ls d', (∀ l ∈ ls, l.inside = true) ∧ d.run R ls = some d' ∧ SStuck R d') ∧
    ∀ ls d', (∀ l ∈ ls, l.inside = true) → d.run R ls = some d' →
      ls.length ≤ sweight R d ∧
      (SStuck R d' → (AllOver d' ∧ ∀ c ∈ d'.calls, c.returned = true) ∨
        (FlushCycle d'.s ∧ d'.aEnd = false ∧ d'.lEnd = false ∧ d'.fEnd = false)) := by
  constructor
  · clear hr hp
    generalize hn : sweight R d = n
    induction n using Nat.strongRecOn generalizing d with
    | ind n ih =>
      by_cases hst : ∃ l d', SLabel.inside l = true ∧ d.step R l = some d'
      · obtain ⟨l, d1, hl, h1⟩ := hst
        have hw := sweight_step R d d1 l hl h1
        obtain ⟨ls, d2, hi, h2, h3⟩ := ih (sweight R d1) (by omega) d1 rfl
        refine ⟨l :: ls, d2, ?_, by simp only [Sd.run, h1]; exact h2, h3⟩
        intro l' hl'
        rcases List.mem_cons.mp hl' with rfl | h
        · exact hl
        · exact hi l' h
      · refine ⟨[], d, by simp, rfl, ?_⟩
        intro l hl
        cases hs : d.step R l with
        | none => rfl
        | some d' => exact absurd ⟨l, d', hl, hs⟩ hst
  · intro ls d' hi hrun
    refine ⟨?_, ?_⟩
    · have := C77_steps_bounded R ls d d' hi hrun; omega
    · intro hst
      refine C77_stuck_partial R d' ?_ ?_ hst
      · obtain ⟨ls0, h0⟩ := hr
        exact ⟨ls0 ++ ls, by rw [Sd.run_append, h0]; exact hrun⟩
      · exact Sd.run_induct R (fun d => d.pending = true) (fun d d' l h => pending_step R d d' l h) ls d d' hp hrun

/-! ## Afterwards -/

theorem over_step (R : Nat) (d d' : Sd) (l : SLabel) (h : AllOver d) (hl : d.step R l = some d') :
    AllOver d' ∧ d'.s.sent = d.s.sent ∧ d'.s.dataQ = d.s.dataQ ∧ d'.s.evQ = d.s.evQ ∧ d'.s.trigQ = d.s.trigQ ∧
      d'.s.cfgQ = d.s.cfgQ := by
  obtain ⟨ha, hu, hle, hf, ht⟩ := h
  cases l with
  | base l =>
    simp only [Sd.step] at hl
    split at hl
    · rename_i hm
      cases hs : step R d.s l with
      | none => simp [hs] at hl
      | some s' =>
        simp only [hs, Option.map_some, Option.some.injEq] at hl
        subst hl
        have hlab : (∃ t, l = .record t) ∨ (∃ t, l = .tWake t) ∨ (∃ t, l = .tCancel t) := by
          cases l <;> simp_all [Sd.may]
        have hU : l.ofU = false := by rcases hlab with ⟨t, rfl⟩ | ⟨t, rfl⟩ | ⟨t, rfl⟩ <;> rfl
        have fr := step_frame R d.s s' l hU hs
        have hrest : s'.sent = d.s.sent ∧ s'.dataQ = d.s.dataQ ∧ s'.cfgQ = d.s.cfgQ := by
          rcases hlab with ⟨t, rfl⟩ | ⟨t, rfl⟩ | ⟨t, rfl⟩ <;> simp only [step] at hs <;>
            (repeat' split at hs) <;>
            first | (obtain rfl := Option.some.inj hs; exact ⟨rfl, rfl, rfl⟩) | simp at hs
        refine ⟨⟨ha, hu, hle, hf, ?_⟩, hrest.1, hrest.2.1, ?_, ?_, hrest.2.2⟩
        · intro x' hx'
          obtain ⟨t, hx'⟩ := List.getElem?_of_mem hx'
          rcases fr.tr.back t x' hx' with ⟨x, hx, hk, _, ho⟩ | h
          · have hxo : x.over = true := by
              have := ht x (List.mem_of_getElem? hx)
              simp only [Task.over, Bool.or_eq_true, beq_iff_eq]
              rcases this with h | h | h <;> simp [h]
            have := ho hxo
            simp only [Task.over, Bool.or_eq_true, beq_iff_eq] at this
            rcases this with (h | h) | h <;> simp [h]
          · exact .inl h
        · apply fr.ev; rcases hlab with ⟨t, rfl⟩ | ⟨t, rfl⟩ | ⟨t, rfl⟩ <;> simp
        · apply fr.trig <;> rcases hlab with ⟨t, rfl⟩ | ⟨t, rfl⟩ | ⟨t, rfl⟩ <;> simp
    · simp at hl
  | call b =>
    simp only [Sd.step] at hl
    split at hl <;> (obtain rfl := Option.some.inj hl; exact ⟨⟨ha, hu, hle, hf, ht⟩, rfl, rfl, rfl, rfl, rfl⟩)
  | ret i =>
    simp only [Sd.step] at hl
    split at hl
    · split at hl
      · obtain rfl := Option.some.inj hl; exact ⟨⟨ha, hu, hle, hf, ht⟩, rfl, rfl, rfl, rfl, rfl⟩
      · simp at hl
    · simp at hl
  | tCanceled t =>
    simp only [Sd.step] at hl
    split at hl
    · rename_i x hx
      split at hl
      · obtain rfl := Option.some.inj hl
        refine ⟨⟨ha, hu, hle, hf, ?_⟩, rfl, rfl, rfl, rfl, rfl⟩
        intro y hy
        simp only [setTask] at hy
        rcases List.mem_or_eq_of_mem_set hy with hy | rfl
        · exact ht y hy
        · rcases ht x (List.mem_of_getElem? hx) with h | h | h
          · exact .inl h
          · right; left; simp [cancelPhase, h]
          · right; right; simp [cancelPhase, h]
      · simp at hl
    · simp at hl
  | aRefused =>
    simp only [Sd.step] at hl
    repeat' split at hl
    all_goals simp_all
  | aFail =>
    simp only [Sd.step] at hl
    repeat' split at hl
    all_goals simp_all
  | uNext =>
    simp only [Sd.step] at hl
    repeat' split at hl
    all_goals simp_all
  | _ => simp [Sd.step, ha, hu, hle, hf] at hl

/-- **C77 (afterwards).** Once everything has ended it stays so, and nothing is handed to the network
again: the channels stay empty and no upload waits for an answer. -/
theorem C77_after (R : Nat) (d : Sd) (hr : SReach R d) (ho : AllOver d) (ls : List SLabel) (d' : Sd)
    (hrun : d.run R ls = some d') :
    AllOver d' ∧ d'.s.sent = [] ∧ d'.s.dataQ = none ∧ d'.s.evQ = none ∧ d'.s.trigQ = none := by
  have h := hr.inv
  obtain ⟨h1, h2⟩ := h.aend ho.a
  obtain ⟨h3, h4, _⟩ := h.uend ho.u
  exact Sd.run_induct R
    (fun d => AllOver d ∧ d.s.sent = [] ∧ d.s.dataQ = none ∧ d.s.evQ = none ∧ d.s.trigQ = none)
    (fun d d' l hd hl => by
      obtain ⟨a, b, c, e, f, _⟩ := over_step R d d' l hd.1 hl
      exact ⟨a, b.trans hd.2.1, c.trans hd.2.2.1, e.trans hd.2.2.2.1, f.trans hd.2.2.2.2⟩)
    ls d d' ⟨ho, h1, h2, h3, h4⟩ hrun

/-- **C77.** When the API task has ended, no upload and no stats upload waits for its answer: what was under way, or still in the
channel, has failed. -/
theorem C77_answered (R : Nat) (d : Sd) (hr : SReach R d) (ha : d.aEnd = true) :
    (∀ (t : Nat) (x : Task) (m n : Nat), d.s.tasks[t]? = some x → x.phase ≠ .waiting m n) ∧ d.s.rx ≠ .waiting := by
  have h := hr.inv
  obtain ⟨h1, h2⟩ := h.aend ha
  refine ⟨fun t x m n hx hp => ?_, fun hw => ?_⟩
  · rcases h.inv.wait t x m n hx hp with e | e
    · rw [h1] at e; cases e
    · rw [h2] at e; cases e
  · rcases h.inv.rx hw with e | e
    · rw [h1] at e; cases e
    · rw [h2] at e; cases e

/-- **C77.** While the upload manager shuts down it takes no buffer event and no request, so it begins no further upload. -/
theorem C77_no_more (R : Nat) (d : Sd) (hu : d.uShut ≠ none) (l : Label) (hl : l = .uEvent ∨ l = .uTrigger) :
    d.step R (.base l) = none := by
  cases h : d.uShut with
  | none => exact absurd h hu
  | some x => rcases hl with rfl | rfl <;> simp [Sd.step, Sd.may, h]

/-- While the trigger is there nobody has called; the first call to return has seen everything end. -/
theorem first_step (R : Nat) (d d' : Sd) (l : SLabel)
    (h : (d.trigger = true → d.calls = []) ∧ (d.trigger = false → d.calls ≠ []) ∧
      (∀ c, d.calls[0]? = some c → c.blocking = true → c.returned = true → AllOver d))
    (hl : d.step R l = some d') :
    (d'.trigger = true → d'.calls = []) ∧ (d'.trigger = false → d'.calls ≠ []) ∧
      (∀ c, d'.calls[0]? = some c → c.blocking = true → c.returned = true → AllOver d') := by
  obtain ⟨h1, h2, h3⟩ := h
  have keep : ∀ d' : Sd, d.step R l = some d' → d'.trigger = d.trigger → d'.calls = d.calls →
      (d'.trigger = true → d'.calls = []) ∧ (d'.trigger = false → d'.calls ≠ []) ∧
      (∀ c, d'.calls[0]? = some c → c.blocking = true → c.returned = true → AllOver d') := by
    intro d' hl ht hc
    rw [ht, hc]
    exact ⟨h1, h2, fun c hc hb hr => (over_step R d d' l (h3 c hc hb hr) hl).1⟩
  cases l with
  | base l =>
    have hl' := hl
    simp only [Sd.step] at hl
    split at hl
    · cases hs : step R d.s l with
      | none => simp [hs] at hl
      | some s' =>
        simp only [hs, Option.map_some, Option.some.injEq] at hl
        exact keep d' hl' (by rw [← hl]) (by rw [← hl])
    · simp at hl
  | call b =>
    simp only [Sd.step] at hl
    split at hl
    · rename_i ht
      obtain rfl := Option.some.inj hl
      refine ⟨by simp, by simp, ?_⟩
      intro c hc hb hr
      rw [h1 ht] at hc
      simp only [List.nil_append, List.getElem?_cons_zero, Option.some.injEq] at hc
      subst hc
      simp only at hb hr
      rw [hb] at hr; simp at hr
    · rename_i ht
      obtain rfl := Option.some.inj hl
      have hne := h2 (by simpa using ht)
      refine ⟨fun h => absurd h ht, by simp, ?_⟩
      intro c hc hb hr
      have : d.calls[0]? = some c := by
        cases hcs : d.calls with
        | nil => exact absurd hcs hne
        | cons a as => simp only [hcs, List.cons_append, List.getElem?_cons_zero] at hc ⊢; exact hc
      have ho := h3 c this hb hr
      exact ⟨ho.a, ho.u, ho.l, ho.f, ho.tasks⟩
  | ret i =>
    simp only [Sd.step] at hl
    split at hl
    · rename_i c hc
      split at hl
      · rename_i hr
        obtain rfl := Option.some.inj hl
        have ho := (closed_iff d).mp hr.2
        refine ⟨?_, ?_, fun _ _ _ _ => ⟨ho.a, ho.u, ho.l, ho.f, ho.tasks⟩⟩
        · intro ht; rw [h1 ht] at hc; simp at hc
        · intro ht hn
          apply h2 ht
          have hl0 : (d.calls.set i { c with returned := true }).length = 0 := by
            simp only at hn; rw [hn]; rfl
          rw [List.length_set] at hl0
          exact List.eq_nil_of_length_eq_zero hl0
      · simp at hl
    · simp at hl
  | _ =>
    have hl' := hl
    simp only [Sd.step] at hl
    repeat' split at hl
    all_goals first
      | (have e := Option.some.inj hl; exact keep d' hl' (by rw [← e]) (by rw [← e]))
      | simp at hl

/-- **C77 (partial).** When the first call of `shutdown` was to block and has returned, all tasks have
ended.  Missing for the full claim: the same for every call (it does not hold, see
`C77_second_call_violated`). -/
theorem C77_returned_partial (R : Nat) (d : Sd) (hr : SReach R d) (c : Call) (hc : d.calls[0]? = some c)
    (hb : c.blocking = true) (hret : c.returned = true) : AllOver d := by
  obtain ⟨ls, h⟩ := hr
  exact (Sd.run_induct R _ (fun d d' l => first_step R d d' l) ls {} d
    ⟨fun _ => rfl, fun h => by simp at h, fun c hc => by simp at hc⟩ h).2.2 c hc hb hret

/-- **C77 (signal).** When the first call of `shutdown` is to block, the shutdown is signalled from then
on. -/
theorem C77_signalled (R : Nat) (d : Sd) (hr : SReach R d) (c : Call) (hc : d.calls[0]? = some c)
    (hb : c.blocking = true) : d.pending = true := by
  obtain ⟨ls, h⟩ := hr
  refine (Sd.run_induct R (fun d => (d.trigger = true → d.calls = []) ∧ (d.trigger = false → d.calls ≠ []) ∧
    ∀ c, d.calls[0]? = some c → c.blocking = true → d.pending = true) ?_ ls {} d
    ⟨fun _ => rfl, fun h => by simp at h, fun c hc => by simp at hc⟩ h).2.2 c hc hb
  rintro d d' l ⟨h1, h2, h3⟩ hl
  cases l with
  | base l =>
    simp only [Sd.step] at hl
    split at hl
    · cases hs : step R d.s l with
      | none => simp [hs] at hl
      | some s' => simp only [hs, Option.map_some, Option.some.injEq] at hl; subst hl; exact ⟨h1, h2, h3⟩
    · simp at hl
  | call b =>
    simp only [Sd.step] at hl
    split at hl
    · rename_i ht
      obtain rfl := Option.some.inj hl
      refine ⟨by simp, by simp, ?_⟩
      intro c hc hb
      rw [h1 ht] at hc
      simp only [List.nil_append, List.getElem?_cons_zero, Option.some.injEq] at hc
      subst hc
      simp only at hb
      simp [hb]
    · rename_i ht
      obtain rfl := Option.some.inj hl
      have hne := h2 (by simpa using ht)
      refine ⟨fun h => absurd h ht, by simp, ?_⟩
      intro c hc hb
      cases hcs : d.calls with
      | nil => exact absurd hcs hne
      | cons a as =>
        simp only [hcs, List.cons_append, List.getElem?_cons_zero] at hc
        exact h3 c (by rw [hcs]; exact hc) hb
  | ret i =>
    simp only [Sd.step] at hl
    split at hl
    · rename_i b hbi
      split at hl
      · obtain rfl := Option.some.inj hl
        refine ⟨?_, ?_, ?_⟩
        · intro ht; rw [h1 ht] at hbi; simp at hbi
        · intro ht hn
          apply h2 ht
          have hl0 : (d.calls.set i { b with returned := true }).length = 0 := by
            simp only at hn; rw [hn]; rfl
          rw [List.length_set] at hl0
          exact List.eq_nil_of_length_eq_zero hl0
        · intro c hc hb
          simp only [List.getElem?_set] at hc
          split at hc
          · rename_i h0
            subst h0
            split at hc
            · obtain rfl := Option.some.inj hc
              exact h3 b hbi hb
            · simp at hc
          · exact h3 c hc hb
      · simp at hl
    · simp at hl
  | _ =>
    simp only [Sd.step] at hl
    repeat' split at hl
    all_goals first
      | (obtain rfl := Option.some.inj hl; exact ⟨h1, h2, h3⟩)
      | simp at hl

/-- **C77 (not before).** As long as nobody called for a blocking shutdown every task runs. -/
theorem C77_runs (R : Nat) (d : Sd) (hr : SReach R d) (hc : ∀ c ∈ d.calls, c.blocking = false) :
    d.aEnd = false ∧ d.uEnd = false ∧ d.lEnd = false ∧ d.fEnd = false ∧ d.uShut = none := by
  have hpend : d.pending = true → ∃ c ∈ d.calls, c.blocking = true := by
    obtain ⟨ls, h⟩ := hr
    refine Sd.run_induct R (fun d => d.pending = true → ∃ c ∈ d.calls, c.blocking = true) ?_ ls {} d
      (by simp) h
    intro d d' l ih hl
    cases l with
    | base l =>
      simp only [Sd.step] at hl
      split at hl
      · cases hs : step R d.s l with
        | none => simp [hs] at hl
        | some s' => simp only [hs, Option.map_some, Option.some.injEq] at hl; subst hl; exact ih
      · simp at hl
    | call b =>
      simp only [Sd.step] at hl
      split at hl
      · obtain rfl := Option.some.inj hl
        simp only [Bool.or_eq_true]
        rintro (h | h)
        · obtain ⟨c, hc, hb⟩ := ih h; exact ⟨c, by simp [hc], hb⟩
        · exact ⟨⟨b, !b⟩, by simp, h⟩
      · obtain rfl := Option.some.inj hl
        intro h
        obtain ⟨c, hc, hb⟩ := ih h
        exact ⟨c, by simp [hc], hb⟩
    | ret i =>
      simp only [Sd.step] at hl
      split at hl
      · rename_i c hc
        split at hl
        · obtain rfl := Option.some.inj hl
          intro h
          obtain ⟨b, hb, hbb⟩ := ih h
          obtain ⟨j, hj⟩ := List.getElem?_of_mem hb
          by_cases hij : i = j
          · subst hij
            rw [hc] at hj
            obtain rfl := Option.some.inj hj
            obtain ⟨hlt, _⟩ := List.getElem?_eq_some_iff.mp hc
            exact ⟨{ c with returned := true }, List.mem_set hlt _, hbb⟩
          · refine ⟨b, List.mem_of_getElem? (i := j) ?_, hbb⟩
            simp only [List.getElem?_set, if_neg hij]; exact hj
        · simp at hl
      · simp at hl
    | _ =>
      simp only [Sd.step] at hl
      repeat' split at hl
      all_goals first
        | (obtain rfl := Option.some.inj hl; exact ih)
        | simp at hl
  have h := hr.inv
  have hn : d.pending ≠ true := by
    intro hp
    obtain ⟨c, hcm, hb⟩ := hpend hp
    rw [hc c hcm] at hb; simp at hb
  refine ⟨?_, ?_, ?_, ?_, ?_⟩
  · cases hx : d.aEnd with
    | false => rfl
    | true => exact absurd (h.told (.inl hx)) hn
  · cases hx : d.uEnd with
    | false => rfl
    | true => exact absurd (h.told (.inr (.inl hx))) hn
  · cases hx : d.lEnd with
    | false => rfl
    | true => exact absurd (h.told (.inr (.inr (.inl hx)))) hn
  · cases hx : d.fEnd with
    | false => rfl
    | true => exact absurd (h.told (.inr (.inr (.inr (.inl hx))))) hn
  · cases hx : d.uShut with
    | none => rfl
    | some l => exact absurd (h.told (.inr (.inr (.inr (.inr (by simp [hx])))))) hn

/-! ## Where it fails -/

/-- The circular wait of the API task, the log buffer and the stats flusher. -/
def Hangs (d : Sd) : Prop := FlushCycle d.s ∧ d.aEnd = false ∧ d.lEnd = false ∧ d.fEnd = false

theorem hangs_step (R : Nat) (d d' : Sd) (l : SLabel) (h : Hangs d) (hl : d.step R l = some d') : Hangs d' := by
  obtain ⟨hf, ha, hle, hfe⟩ := h
  have hf' := hf
  obtain ⟨h1, h2, h3, h4, h5⟩ := hf'
  cases l with
  | base l =>
    simp only [Sd.step] at hl
    split at hl
    · cases hs : step R d.s l with
      | none => simp [hs] at hl
      | some s' =>
        simp only [hs, Option.map_some, Option.some.injEq] at hl
        subst hl
        exact ⟨flushCycle_step R d.s s' l hf hs, ha, hle, hfe⟩
    · simp at hl
  | call b =>
    simp only [Sd.step] at hl
    split at hl <;> (obtain rfl := Option.some.inj hl; exact ⟨hf, ha, hle, hfe⟩)
  | ret i =>
    simp only [Sd.step] at hl
    repeat' split at hl
    all_goals first
      | (obtain rfl := Option.some.inj hl; exact ⟨hf, ha, hle, hfe⟩)
      | simp at hl
  | aStop => simp [Sd.step, h1] at hl
  | aRefused => simp [Sd.step, h1] at hl
  | aConfigRefused => simp [Sd.step, hle] at hl
  | aFail => simp [Sd.step, h1] at hl
  | lStop => simp [Sd.step, h3] at hl
  | lRefused => simp [Sd.step, hfe] at hl
  | fStop => simp [Sd.step, h4] at hl
  | fRefused => simp [Sd.step, ha] at hl
  | uStop order =>
    simp only [Sd.step] at hl
    split at hl
    · obtain rfl := Option.some.inj hl
      obtain ⟨ts, e⟩ := shutAll_eq (order.take 1) d.s
      refine ⟨?_, ha, hle, hfe⟩
      simp only [signalHead_eq, e]; exact hf
    · simp at hl
  | uNext =>
    simp only [Sd.step] at hl
    split at hl
    · rename_i t tl _
      split at hl
      · split at hl
        · obtain rfl := Option.some.inj hl
          obtain ⟨ts, e⟩ := shutAll_eq (tl.take 1) d.s
          refine ⟨?_, ha, hle, hfe⟩
          simp only [signalHead_eq, e]; exact hf
        · simp at hl
      · simp at hl
    · simp at hl
  | uFinish =>
    simp only [Sd.step] at hl
    split at hl
    · obtain rfl := Option.some.inj hl
      obtain ⟨ts, e⟩ := shutAll_eq (d.s.shutdowns.map (·.2) ++ d.s.streamTask.toList) d.s
      refine ⟨?_, ha, hle, hfe⟩
      simp only [uGone, dropTriggers, e]; exact hf
    · simp at hl
  | tCanceled t =>
    simp only [Sd.step] at hl
    split at hl
    · split at hl
      · obtain rfl := Option.some.inj hl; exact ⟨hf, ha, hle, hfe⟩
      · simp at hl
    · simp at hl

/-- **C77 (undisturbed).** As long as nobody called for a blocking shutdown, whatever the logger can do
without the machinery of the shutdown it can do with it, and with the same result. -/
theorem C77_undisturbed (R : Nat) (d : Sd) (hr : SReach R d) (hc : ∀ c ∈ d.calls, c.blocking = false) (l : Label) :
    d.step R (.base l) = (Tasks.step R d.s l).map fun s => { d with s := s } := by
  obtain ⟨h1, h2, h3, h4, h5⟩ := C77_runs R d hr hc
  simp only [Sd.step]
  rw [if_pos]
  cases l <;> simp [Sd.may, h1, h2, h3, h4, h5]

/-- **C77 (violated).** A blocking call that meets a stats upload waiting to be sent and a second
configuration update leaves three tasks waiting for each other where none of them looks at the
shutdown: a shutdown called then never returns, whatever happens. -/
theorem C77_flush_violated (R : Nat) :
    ∃ d, Sd.run R {} (Ex.flushWhileUpdating.map .base ++ [.call true]) = some d ∧ d.pending = true ∧
      d.calls = [⟨true, false⟩] ∧
      ∀ ls d', d.run R ls = some d' → ¬ AllOver d' ∧ ∃ c ∈ d'.calls, c.returned = false := by
  refine ⟨_, rfl, rfl, rfl, ?_⟩
  intro ls d' hr
  have h := Sd.run_induct R (fun d => Hangs d ∧ ∃ c, d.calls[0]? = some c ∧ c.returned = false)
    (fun d d' l h hl => ?_) ls _ d' ⟨⟨⟨rfl, rfl, rfl, rfl, by simp⟩, rfl, rfl, rfl⟩, _, rfl, rfl⟩ hr
  · obtain ⟨h, c, hc, hcr⟩ := h
    exact ⟨fun ho => by rw [Hangs, ho.a] at h; simp at h, c, List.mem_of_getElem? hc, hcr⟩
  · obtain ⟨hh, c, hc, hcr⟩ := h
    refine ⟨hangs_step R d d' l hh hl, ?_⟩
    cases l with
    | base l =>
      simp only [Sd.step] at hl
      split at hl
      · cases hs : step R d.s l with
        | none => simp [hs] at hl
        | some s' => simp only [hs, Option.map_some, Option.some.injEq] at hl; subst hl; exact ⟨c, hc, hcr⟩
      · simp at hl
    | call b =>
      have hlt := (List.getElem?_eq_some_iff.mp hc).1
      simp only [Sd.step] at hl
      split at hl <;>
        (obtain rfl := Option.some.inj hl
         exact ⟨c, by simp only [List.getElem?_append_left hlt]; exact hc, hcr⟩)
    | ret i =>
      simp only [Sd.step] at hl
      split at hl
      · split at hl
        · rename_i hx
          exfalso
          have := (closed_iff d).mp hx.2
          rw [Hangs, this.a] at hh; simp at hh
        · simp at hl
      · simp at hl
    | _ =>
      simp only [Sd.step] at hl
      repeat' split at hl
      all_goals first
        | (obtain rfl := Option.some.inj hl; exact ⟨c, hc, hcr⟩)
        | simp at hl

/-- **C77 (violated).** A call of `shutdown` which is not to block drops the trigger without a signal;
the log buffer holds a handle, so nobody notices: whatever happens afterwards, also further calls that
are to block, every task goes on. -/
theorem C77_nonblocking_violated (R : Nat) :
    ∃ d, Sd.run R {} [.call false] = some d ∧
      ∀ ls d', d.run R ls = some d' →
        d'.aEnd = false ∧ d'.uEnd = false ∧ d'.lEnd = false ∧ d'.fEnd = false ∧
        (∀ c ∈ d'.calls, c.returned = true) := by
  refine ⟨_, rfl, ?_⟩
  intro ls d' hr
  have h := Sd.run_induct R
    (fun d => SInv d ∧ d.trigger = false ∧ d.pending = false ∧ ∀ c ∈ d.calls, c.returned = true)
    (fun d d' l h hl => ?_) ls _ d'
    ⟨sinv_step R {} _ (.call false) sinv_init rfl, rfl, rfl, by simp⟩ hr
  · obtain ⟨h, _, hp, hc⟩ := h
    have hn : d'.pending ≠ true := by simp [hp]
    refine ⟨?_, ?_, ?_, ?_, hc⟩
    · cases hx : d'.aEnd with
      | false => rfl
      | true => exact absurd (h.told (.inl hx)) hn
    · cases hx : d'.uEnd with
      | false => rfl
      | true => exact absurd (h.told (.inr (.inl hx))) hn
    · cases hx : d'.lEnd with
      | false => rfl
      | true => exact absurd (h.told (.inr (.inr (.inl hx)))) hn
    · cases hx : d'.fEnd with
      | false => rfl
      | true => exact absurd (h.told (.inr (.inr (.inr (.inl hx))))) hn
  · obtain ⟨hi, ht, hp, hc⟩ := h
    refine ⟨sinv_step R d d' l hi hl, ?_⟩
    cases l with
    | base l =>
      simp only [Sd.step] at hl
      split at hl
      · cases hs : step R d.s l with
        | none => simp [hs] at hl
        | some s' => simp only [hs, Option.map_some, Option.some.injEq] at hl; subst hl; exact ⟨ht, hp, hc⟩
      · simp at hl
    | call b =>
      simp only [Sd.step, ht, Bool.false_eq_true, if_false, Option.some.injEq] at hl
      subst hl
      refine ⟨rfl, hp, ?_⟩
      intro c hcm
      rcases List.mem_append.mp hcm with h | h
      · exact hc c h
      · rw [List.mem_singleton.mp h]
    | ret i =>
      simp only [Sd.step] at hl
      split at hl
      · rename_i c hci
        split at hl
        · rename_i hx
          have := hc c (List.mem_of_getElem? hci)
          rw [this] at hx; simp at hx
        · simp at hl
      · simp at hl
    | _ =>
      simp only [Sd.step] at hl
      repeat' split at hl
      all_goals first
        | (obtain rfl := Option.some.inj hl; exact ⟨ht, hp, hc⟩)
        | simp at hl

/-- **C77 (violated).** While one thread waits in a blocking shutdown, a second one that calls it returns
at once, with every task still running. -/
theorem C77_second_call_violated (R : Nat) :
    ∃ d, Sd.run R {} [.base .connect, .call true, .call true] = some d ∧
      d.calls = [⟨true, false⟩, ⟨true, true⟩] ∧ d.aEnd = false ∧ d.uEnd = false ∧ d.lEnd = false ∧ d.fEnd = false :=
  ⟨_, rfl, rfl, rfl, rfl, rfl, rfl⟩

/-! ## Examples -/

/-- A triggered upload of two batches is under way and a configuration is removing its buffer (the other
circular wait of C71) when the shutdown is called: the upload is cancelled batch by batch, the upload
manager acknowledges, everything ends and the call returns. -/
example : ∃ d, Sd.run 3 {} (Ex.removeWhileUploading.map .base ++
    [.call true, .tCanceled 0, .base (.tPut 0), .tCanceled 0, .base .uClosed, .uStop [], .uFinish, .base .acked,
     .base .putConfig, .aStop, .fStop, .lStop, .ret 0]) = some d ∧ AllOver d ∧ d.calls = [⟨true, true⟩] :=
  ⟨_, rfl, ⟨rfl, rfl, rfl, rfl, by decide +kernel⟩, rfl⟩

/-- The server asks for a flush when the upload manager has just ended: the API task fails and takes the
rest down. -/
example : ∃ d, Sd.run 3 {} [.base .connect, .base (.serverFlush [(1, 1)]), .call true, .uStop [], .uFinish,
    .aFail, .ret 0] = some d ∧ AllOver d ∧ d.calls = [⟨true, true⟩] :=
  ⟨_, rfl, ⟨rfl, rfl, rfl, rfl, by decide +kernel⟩, rfl⟩

/-- A continuous upload goes on reading and giving up until the upload manager stops it. -/
example : ∃ d, Sd.run 3 {} [.base .connect, .base (.config [.contCreated 3] true), .base .putEvent, .base .uEvent,
    .base .acked, .base .putConfig, .base (.record 0), .call true, .tCanceled 0, .base (.record 0), .tCanceled 0,
    .uStop [0], .base (.tCancel 0), .uNext, .uFinish, .lStop, .aStop, .fStop, .ret 0] = some d ∧
    AllOver d ∧ d.calls = [⟨true, true⟩] :=
  ⟨_, rfl, ⟨rfl, rfl, rfl, rfl, by decide +kernel⟩, rfl⟩

end Verif.Tasks
