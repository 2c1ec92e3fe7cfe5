import Verif.Report.Periodic
import Mathlib.Data.List.Induction

/-
C86: the periodic reporters keep their interval.
-/
namespace Verif.Report

/-- All values the interval flag ever has satisfy `P`. -/
def Rates (P : Nat → Prop) (rate0 : Nat) (evs : List PEv) : Prop :=
  P rate0 ∧ ∀ on r, PEv.update on r ∈ evs → P r

/-- Consecutive calls are at least `d` apart (up to the 5 ms of tokio). -/
def Spaced (d : Nat) : List Nat → Prop
  | a :: b :: l => a + d ≤ b + 5 ∧ Spaced d (b :: l)
  | _ => True

theorem spaced_append (d : Nat) (l : List Nat) (x : Nat) (h : Spaced d l)
    (hx : ∀ y, l.getLast? = some y → y + d ≤ x + 5) : Spaced d (l ++ [x]) := by
  induction l with
  | nil => trivial
  | cons a l ih =>
    cases l with
    | nil => exact ⟨hx a rfl, trivial⟩
    | cons b l =>
      obtain ⟨h1, h2⟩ := h
      refine ⟨h1, ih h2 ?_⟩
      intro y hy
      exact hx y (by rw [List.getLast?_cons_cons]; exact hy)

theorem per_run_snoc (r : Nat) (s : Per) (evs : List PEv) (e : PEv) : s.run r (evs ++ [e]) = (s.run r evs).step r e := by
  simp [Per.run]

structure Per.Inv (m M : Nat) (s : Per) : Prop where
  rate : m ≤ s.flagRate ∧ s.flagRate ≤ M
  itv : ∀ i, s.itv = some i → m ≤ i.period ∧ i.period ≤ M ∧ i.deadline ≤ s.now + M ∧
    ∀ y, s.ticks.getLast? = some y → y + m ≤ i.deadline + 5
  before : s.itv = none → s.ticks = []
  past : ∀ y ∈ s.ticks, y ≤ s.now
  spaced : Spaced m s.ticks
  seen : s.pendOn = false → s.on = s.flagOn

theorem Per.Inv.step {m M rate0 : Nat} {s : Per} (h : s.Inv m M) (h0 : m ≤ rate0 ∧ rate0 ≤ M) (e : PEv)
    (he : ∀ on r, e = .update on r → m ≤ r ∧ r ≤ M) : (s.step rate0 e).Inv m M := by
  have hlast : ∀ y, s.ticks.getLast? = some y → y ≤ s.now := fun y hy => h.past y (List.mem_of_getLast? hy)
  cases e with
  | wait d =>
    refine ⟨h.rate, fun i hi => ?_, h.before, fun y hy => ?_, h.spaced, h.seen⟩
    · obtain ⟨h1, h2, h3, h4⟩ := h.itv i hi
      exact ⟨h1, h2, by simp only [Per.step]; omega, h4⟩
    · have := h.past y hy
      simp only [Per.step]; omega
  | update on rate =>
    refine ⟨he on rate rfl, h.itv, h.before, h.past, h.spaced, fun hp => ?_⟩
    simp only [Per.step, Bool.or_eq_false_iff, bne_eq_false_iff_eq] at hp ⊢
    rw [h.seen hp.1, hp.2]
  | start =>
    simp only [Per.step]
    split
    · exact h
    · next hs =>
      simp only [Bool.or_eq_true, not_or, Bool.not_eq_true, Option.isSome_eq_false_iff, Option.isNone_iff_eq_none] at hs
      unfold Per.create
      split
      · exact ⟨h.rate, h.itv, h.before, h.past, h.spaced, h.seen⟩
      · refine ⟨h.rate, fun i hi => ?_, fun hn => by simp at hn, h.past, h.spaced, h.seen⟩
        simp only [if_true, Option.some.injEq] at hi
        subst hi
        refine ⟨h0.1, h0.2, by simp only; omega, fun y hy => ?_⟩
        simp [h.before hs.2] at hy
  | tick =>
    simp only [Per.step]
    split
    · exact h
    · next i hi =>
      split
      · next hc =>
        simp only [Bool.and_eq_true, decide_eq_true_eq] at hc
        obtain ⟨h1, h2, h3, h4⟩ := h.itv i hi
        have hd := hc.2
        refine ⟨h.rate, fun j hj => ?_, fun hn => by simp at hn, fun y hy => ?_, ?_, h.seen⟩
        · simp only [Option.some.injEq] at hj
          subst hj
          refine ⟨h1, h2, ?_, fun y hy => ?_⟩
          · simp only [Itv.next]
            split <;> omega
          · simp only [List.getLast?_append, List.getLast?_singleton, Option.some_or, Option.some.injEq] at hy
            subst hy
            simp only [Itv.next]
            split <;> omega
        · rcases List.mem_append.mp hy with hy | hy
          · exact h.past y hy
          · rw [List.mem_singleton] at hy
            simp only; omega
        · refine spaced_append _ _ _ h.spaced (fun y hy => ?_)
          have := h4 y hy
          omega
      · exact h
  | rateChanged =>
    simp only [Per.step]
    split
    · unfold Per.create
      split
      · exact ⟨h.rate, h.itv, h.before, h.past, h.spaced, h.seen⟩
      · refine ⟨h.rate, fun i hi => ?_, fun hn => by simp at hn, h.past, h.spaced, h.seen⟩
        simp only [Bool.false_eq_true, if_false, Option.some.injEq] at hi
        subst hi
        refine ⟨h.rate.1, h.rate.2, by simp only; have := h.rate.2; omega, fun y hy => ?_⟩
        have := hlast y hy
        have := h.rate.1
        simp only; omega
    · exact h
  | onChanged =>
    simp only [Per.step]
    split
    · exact ⟨h.rate, h.itv, h.before, h.past, h.spaced, fun _ => rfl⟩
    · exact h
  | shutdown => exact ⟨h.rate, h.itv, h.before, h.past, h.spaced, h.seen⟩

theorem Per.inv_run {m M : Nat} (on : Bool) (rate0 : Nat) (evs : List PEv)
    (h : Rates (fun r => m ≤ r ∧ r ≤ M) rate0 evs) : ((Per.init on rate0).run rate0 evs).Inv m M := by
  induction evs using List.reverseRecOn with
  | nil =>
    exact ⟨h.1, fun i hi => by simp [Per.run, Per.init] at hi, fun _ => rfl, fun y hy => by simp [Per.run, Per.init] at hy,
      trivial, fun _ => rfl⟩
  | append_singleton evs e ih =>
    rw [per_run_snoc]
    refine (ih ⟨h.1, fun on r hm => h.2 on r (List.mem_append_left _ hm)⟩).step h.1 e ?_
    rintro on r rfl
    exact h.2 on r (by simp)

/-- C86: whatever happens to the flags and however the branches of the loop are chosen, two calls of the platform are never closer together
than the shortest interval ever configured (less the 5 ms within which tokio does not count a tick as late). -/
theorem C86_spaced (on : Bool) (rate0 m : Nat) (evs : List PEv) (h : Rates (fun r => m ≤ r) rate0 evs) :
    Spaced m ((Per.init on rate0).run rate0 evs).ticks := by
  -- any upper bound will do
  obtain ⟨M, hM⟩ : ∃ M, Rates (fun r => m ≤ r ∧ r ≤ M) rate0 evs := by
    have hb : ∃ M, rate0 ≤ M ∧ ∀ on r, PEv.update on r ∈ evs → r ≤ M := by
      clear h
      induction evs with
      | nil => exact ⟨rate0, Nat.le_refl _, fun _ _ hm => by cases hm⟩
      | cons e evs ih =>
        obtain ⟨M, h1, h2⟩ := ih
        refine ⟨M + (match e with | .update _ r => r | _ => 0), by omega, fun on r hm => ?_⟩
        rcases List.mem_cons.mp hm with rfl | hm
        · simp only; omega
        · have := h2 on r hm
          omega
    obtain ⟨M, h1, h2⟩ := hb
    exact ⟨M, ⟨h.1, h1⟩, fun on r hm => ⟨h.2 on r hm, h2 on r hm⟩⟩
  exact (Per.inv_run on rate0 evs hM).spaced

theorem spaced_length (d : Nat) (l : List Nat) (a b : Nat) (h : Spaced d (a :: l)) (hb : ∀ x ∈ a :: l, x ≤ b) :
    a + l.length * d ≤ b + l.length * 5 := by
  induction l generalizing a with
  | nil =>
    have := hb a (by simp)
    simpa using this
  | cons c l ih =>
    obtain ⟨h1, h2⟩ := h
    have := ih c h2 (fun x hx => hb x (List.mem_cons_of_mem _ hx))
    simp only [List.length_cons, Nat.add_mul, Nat.one_mul]
    omega

/-- C86: the number of calls up to a time is bounded by that time divided by the shortest interval. -/
theorem C86_count (on : Bool) (rate0 m : Nat) (evs : List PEv) (h : Rates (fun r => m ≤ r) rate0 evs) :
    let s := (Per.init on rate0).run rate0 evs
    (s.ticks.length - 1) * m ≤ s.now + (s.ticks.length - 1) * 5 := by
  intro s
  have hs : Spaced m s.ticks := C86_spaced on rate0 m evs h
  have hp : ∀ y ∈ s.ticks, y ≤ s.now := by
    have : ∀ evs : List PEv, ∀ y ∈ ((Per.init on rate0).run rate0 evs).ticks, y ≤ ((Per.init on rate0).run rate0 evs).now := by
      intro evs
      have hb : ∃ M, Rates (fun r => 0 ≤ r ∧ r ≤ M) rate0 evs := by
        induction evs with
        | nil => exact ⟨rate0, ⟨Nat.zero_le _, Nat.le_refl _⟩, fun _ _ hm => by cases hm⟩
        | cons e evs ih =>
          obtain ⟨M, h1, h2⟩ := ih
          refine ⟨M + (match e with | .update _ r => r | _ => 0), ⟨Nat.zero_le _, by omega⟩, fun on r hm => ?_⟩
          rcases List.mem_cons.mp hm with rfl | hm
          · exact ⟨Nat.zero_le _, by simp only; omega⟩
          · have := (h2 on r hm).2
            exact ⟨Nat.zero_le _, by omega⟩
      obtain ⟨M, hM⟩ := hb
      exact (Per.inv_run on rate0 evs hM).past
    exact this evs
  cases hl : s.ticks with
  | nil => simp
  | cons a l =>
    rw [hl] at hs hp
    have := spaced_length m l a s.now hs hp
    simp only [List.length_cons, Nat.add_sub_cancel]
    omega

/-- The value of the enabled flag after these events. -/
def onAfter (b : Bool) (evs : List PEv) : Bool :=
  (evs.filterMap fun e => match e with | .update b _ => some b | _ => none).getLast?.getD b

theorem flagOn_run (on : Bool) (rate0 : Nat) (evs : List PEv) :
    ((Per.init on rate0).run rate0 evs).flagOn = onAfter on evs := by
  induction evs using List.reverseRecOn with
  | nil => rfl
  | append_singleton evs e ih =>
    rw [per_run_snoc]
    have hq : onAfter on (evs ++ [e]) = match e with | .update b _ => b | _ => onAfter on evs := by
      cases e <;> simp [onAfter, List.filterMap_append]
    rw [hq]
    cases e with
    | wait d => exact ih
    | update b r => rfl
    | start =>
      simp only [Per.step, Per.create]
      split
      · exact ih
      · split <;> exact ih
    | tick =>
      simp only [Per.step]
      split
      · exact ih
      · split <;> exact ih
    | rateChanged =>
      simp only [Per.step, Per.create]
      split
      · split <;> exact ih
      · exact ih
    | onChanged =>
      simp only [Per.step]
      split <;> exact ih
    | shutdown => exact ih

/-- The reporter is disabled, and knows it, or its task is gone. -/
def Per.Quiet (s : Per) : Prop := (s.on = false ∧ s.flagOn = false) ∨ s.panicked = true ∨ s.stopped = true

/-- Nothing that these events do makes a quiet reporter call. -/
theorem quiet_run (rate0 : Nat) (evs : List PEv) (s : Per) (hq : s.Quiet)
    (h : ∀ b r, PEv.update b r ∈ evs → b = false) : (s.run rate0 evs).ticks = s.ticks := by
  induction evs generalizing s with
  | nil => rfl
  | cons e evs ih =>
    have key : (s.step rate0 e).Quiet ∧ (s.step rate0 e).ticks = s.ticks := by
      cases e with
      | wait d => exact ⟨hq, rfl⟩
      | update b r =>
        refine ⟨?_, rfl⟩
        rcases hq with ⟨h1, h2⟩ | hq
        · exact .inl ⟨h1, h b r (by simp)⟩
        · exact .inr hq
      | start =>
        simp only [Per.step, Per.create]
        split
        · exact ⟨hq, rfl⟩
        · split
          · exact ⟨.inr (.inl rfl), rfl⟩
          · exact ⟨hq, rfl⟩
      | tick =>
        simp only [Per.step]
        split
        · exact ⟨hq, rfl⟩
        · split
          · next hc =>
            simp only [Bool.and_eq_true, Bool.not_eq_true'] at hc
            rcases hq with hq | hq | hq
            · simp [hq.1] at hc
            · simp [hq] at hc
            · simp [hq] at hc
          · exact ⟨hq, rfl⟩
      | rateChanged =>
        simp only [Per.step, Per.create]
        split
        · split
          · exact ⟨.inr (.inl rfl), rfl⟩
          · exact ⟨hq, rfl⟩
        · exact ⟨hq, rfl⟩
      | onChanged =>
        simp only [Per.step]
        split
        · refine ⟨?_, rfl⟩
          rcases hq with hq | hq
          · exact .inl ⟨hq.2, hq.2⟩
          · exact .inr hq
        · exact ⟨hq, rfl⟩
      | shutdown => exact ⟨.inr (.inr rfl), rfl⟩
    show ((s.step rate0 e).run rate0 evs).ticks = _
    rw [ih _ key.1 (fun b r hm => h b r (List.mem_cons_of_mem _ hm)), key.2]

/-- Once entered, the loop has an interval, unless making it panicked. -/
theorem started_run (on : Bool) (rate0 : Nat) (evs : List PEv) (h : PEv.start ∈ evs) :
    let s := (Per.init on rate0).run rate0 evs
    s.itv.isSome = true ∨ s.panicked = true := by
  induction evs using List.reverseRecOn with
  | nil => cases h
  | append_singleton evs e ih =>
    intro s
    have hs : s = ((Per.init on rate0).run rate0 evs).step rate0 e := per_run_snoc ..
    rw [hs]
    generalize hg : (Per.init on rate0).run rate0 evs = t at *
    by_cases he : e = .start
    · subst he
      simp only [Per.step, Per.create]
      split
      · next hc =>
        simp only [Bool.or_eq_true] at hc
        exact hc.symm
      · split
        · exact .inr rfl
        · exact .inl rfl
    · have hm : PEv.start ∈ evs := by
        rcases List.mem_append.mp h with hm | hm
        · exact hm
        · rw [List.mem_singleton] at hm
          exact absurd hm.symm he
      have ih := ih hm
      simp only at ih
      cases e with
      | start => exact absurd rfl he
      | wait d => exact ih
      | update b r => exact ih
      | tick =>
        simp only [Per.step]
        split
        · exact ih
        · split
          · exact .inl rfl
          · exact ih
      | rateChanged =>
        simp only [Per.step, Per.create]
        split
        · split
          · exact .inr rfl
          · exact .inl rfl
        · exact ih
      | onChanged =>
        simp only [Per.step]
        split <;> exact ih
      | shutdown => exact ih

theorem inv_any (on : Bool) (rate0 : Nat) (evs : List PEv) :
    ∃ M, ((Per.init on rate0).run rate0 evs).Inv 0 M := by
  have hb : ∃ M, Rates (fun r => 0 ≤ r ∧ r ≤ M) rate0 evs := by
    induction evs with
    | nil => exact ⟨rate0, ⟨Nat.zero_le _, Nat.le_refl _⟩, fun _ _ hm => by cases hm⟩
    | cons e evs ih =>
      obtain ⟨M, h1, h2⟩ := ih
      refine ⟨M + (match e with | .update _ r => r | _ => 0), ⟨Nat.zero_le _, by omega⟩, fun on r hm => ?_⟩
      rcases List.mem_cons.mp hm with rfl | hm
      · exact ⟨Nat.zero_le _, by simp only; omega⟩
      · have := (h2 on r hm).2
        exact ⟨Nat.zero_le _, by omega⟩
  obtain ⟨M, hM⟩ := hb
  exact ⟨M, Per.inv_run on rate0 evs hM⟩

/-- C86: once a running reporter has seen that the flag is off, the platform is not called until the flag is on again. -/
theorem C86_disabled (on : Bool) (rate0 : Nat) (evs1 evs2 : List PEv) (hs : PEv.start ∈ evs1)
    (hoff : onAfter on evs1 = false) (h2 : ∀ b r, PEv.update b r ∈ evs2 → b = false) :
    ((Per.init on rate0).run rate0 (evs1 ++ .onChanged :: evs2)).ticks =
      ((Per.init on rate0).run rate0 evs1).ticks := by
  have hst := started_run on rate0 evs1 hs
  have hfl := flagOn_run on rate0 evs1
  obtain ⟨M, hinv⟩ := inv_any on rate0 evs1
  have hsplit : (Per.init on rate0).run rate0 (evs1 ++ .onChanged :: evs2) =
      (((Per.init on rate0).run rate0 evs1).step rate0 .onChanged).run rate0 evs2 := by
    simp only [Per.run, List.foldl_append, List.foldl_cons]
  rw [hsplit]
  generalize (Per.init on rate0).run rate0 evs1 = s at *
  have hq : (s.step rate0 .onChanged).Quiet ∧ (s.step rate0 .onChanged).ticks = s.ticks := by
    simp only [Per.step]
    split
    · exact ⟨.inl ⟨hfl.trans hoff, hfl.trans hoff⟩, rfl⟩
    · next hc =>
      refine ⟨?_, rfl⟩
      cases hp : s.panicked
      · cases hx : s.stopped
        · simp only at hst
          rw [hp] at hst
          simp only [Bool.false_eq_true, or_false] at hst
          rw [hp, hx, hst] at hc
          have hpd : s.pendOn = false := by simpa using hc
          exact .inl ⟨(hinv.seen hpd).trans (hfl.trans hoff), hfl.trans hoff⟩
        · exact .inr (.inr hx)
      · exact .inr (.inl hp)
  rw [quiet_run rate0 evs2 _ hq.1 h2, hq.2]

/-- C86, partial: a reporter whose interval is never configured as zero does not panic.

Missing: an interval of zero; see `C86_zero_violated`. -/
theorem C86_no_panic_partial (on : Bool) (rate0 : Nat) (evs : List PEv) (h : Rates (fun r => 0 < r) rate0 evs) :
    ((Per.init on rate0).run rate0 evs).panicked = false := by
  have : ((Per.init on rate0).run rate0 evs).panicked = false ∧ 0 < ((Per.init on rate0).run rate0 evs).flagRate := by
    induction evs using List.reverseRecOn with
    | nil => exact ⟨rfl, h.1⟩
    | append_singleton evs e ih =>
      rw [per_run_snoc]
      have ih := ih ⟨h.1, fun on r hm => h.2 on r (List.mem_append_left _ hm)⟩
      generalize (Per.init on rate0).run rate0 evs = s at *
      cases e with
      | wait d => exact ih
      | update b r => exact ⟨ih.1, h.2 b r (by simp)⟩
      | start =>
        simp only [Per.step, Per.create]
        split
        · exact ih
        · split
          · next h0 => exact absurd h.1 (by rw [h0]; omega)
          · exact ih
      | tick =>
        simp only [Per.step]
        split
        · exact ih
        · split <;> exact ih
      | rateChanged =>
        simp only [Per.step, Per.create]
        split
        · split
          · next h0 =>
            have := ih.2
            omega
          · exact ih
        · exact ih
      | onChanged =>
        simp only [Per.step]
        split <;> exact ih
      | shutdown => exact ih
  exact this.1

theorem not_stopped (on : Bool) (rate0 : Nat) (evs : List PEv) (h : PEv.shutdown ∉ evs) :
    ((Per.init on rate0).run rate0 evs).stopped = false := by
  induction evs using List.reverseRecOn with
  | nil => rfl
  | append_singleton evs e ih =>
    rw [per_run_snoc]
    have ih := ih (fun hm => h (List.mem_append_left _ hm))
    cases e with
    | wait d => exact ih
    | update b r => exact ih
    | start =>
      simp only [Per.step, Per.create]
      split
      · exact ih
      · split <;> exact ih
    | tick =>
      simp only [Per.step]
      split
      · exact ih
      · split <;> exact ih
    | rateChanged =>
      simp only [Per.step, Per.create]
      split
      · split <;> exact ih
      · exact ih
    | onChanged =>
      simp only [Per.step]
      split <;> exact ih
    | shutdown => simp at h

/-- C86: an enabled reporter calls: in any state of a running loop with the flag on, after the loop has looked at both flags and the
longest interval ever configured has passed, the next turn calls the platform. -/
theorem C86_due (on : Bool) (rate0 M : Nat) (evs : List PEv) (h : Rates (fun r => 0 < r ∧ r ≤ M) rate0 evs)
    (hs : PEv.start ∈ evs) (hn : PEv.shutdown ∉ evs) (hon : onAfter on evs = true) :
    let s := (Per.init on rate0).run rate0 (evs ++ [.rateChanged, .onChanged, .wait M, .tick])
    s.ticks = ((Per.init on rate0).run rate0 evs).ticks ++ [s.now] := by
  intro s
  have hinv : ((Per.init on rate0).run rate0 (evs ++ [.rateChanged, .onChanged])).Inv 1 M :=
    Per.inv_run on rate0 _ ⟨h.1, fun on r hm => h.2 on r (by simpa using hm)⟩
  have hpan : ((Per.init on rate0).run rate0 (evs ++ [.rateChanged, .onChanged])).panicked = false :=
    C86_no_panic_partial on rate0 _ ⟨h.1.1, fun on r hm => (h.2 on r (by simpa using hm)).1⟩
  have hstart : ((Per.init on rate0).run rate0 (evs ++ [.rateChanged, .onChanged])).itv.isSome = true := by
    rcases started_run on rate0 (evs ++ [.rateChanged, .onChanged]) (List.mem_append_left _ hs) with hx | hx
    · exact hx
    · rw [hpan] at hx
      cases hx
  have hstop := not_stopped on rate0 (evs ++ [.rateChanged, .onChanged]) (by simp [hn])
  have hfl := flagOn_run on rate0 (evs ++ [.rateChanged, .onChanged])
  have hfl' : onAfter on (evs ++ [.rateChanged, .onChanged]) = true := by
    rw [← hon]
    simp [onAfter, List.filterMap_append]
  rw [hfl'] at hfl
  have htk : ((Per.init on rate0).run rate0 (evs ++ [.rateChanged, .onChanged])).ticks =
      ((Per.init on rate0).run rate0 evs).ticks := by
    have : (Per.init on rate0).run rate0 (evs ++ [.rateChanged, .onChanged]) =
        (((Per.init on rate0).run rate0 evs).step rate0 .rateChanged).step rate0 .onChanged := by
      simp only [Per.run, List.foldl_append, List.foldl_cons, List.foldl_nil]
    have h1 : ∀ t : Per, (t.step rate0 .rateChanged).ticks = t.ticks := by
      intro t
      simp only [Per.step, Per.create]
      split
      · split <;> rfl
      · rfl
    have h2 : ∀ t : Per, (t.step rate0 .onChanged).ticks = t.ticks := by
      intro t
      simp only [Per.step]
      split <;> rfl
    rw [this, h2, h1]
  have hpd : ((Per.init on rate0).run rate0 (evs ++ [.rateChanged, .onChanged])).pendOn = false := by
    have hsp : (Per.init on rate0).run rate0 (evs ++ [.rateChanged, .onChanged]) =
        ((Per.init on rate0).run rate0 (evs ++ [.rateChanged])).step rate0 .onChanged := by
      rw [← per_run_snoc]
      simp
    rw [hsp] at hpan hstart hstop ⊢
    generalize (Per.init on rate0).run rate0 (evs ++ [.rateChanged]) = t at *
    simp only [Per.step] at hpan hstart hstop ⊢
    split
    · rfl
    · next hc =>
      rw [if_neg hc] at hpan hstart hstop
      rw [hpan, hstop, hstart] at hc
      simpa using hc
  have hon' := hinv.seen hpd
  rw [hfl] at hon'
  have hsp : s = (((Per.init on rate0).run rate0 (evs ++ [.rateChanged, .onChanged])).step rate0 (.wait M)).step rate0 .tick := by
    simp only [s, Per.run, List.foldl_append, List.foldl_cons, List.foldl_nil]
  rw [← htk, hsp]
  generalize (Per.init on rate0).run rate0 (evs ++ [.rateChanged, .onChanged]) = t at *
  obtain ⟨i, hi⟩ := Option.isSome_iff_exists.mp hstart
  obtain ⟨_, _, h3, _⟩ := hinv.itv i hi
  simp only [Per.step, hi, hpan, hstop, hon', h3, Bool.not_false, Bool.and_self, decide_true, if_true]

/-- C86: no calls after the shutdown. -/
theorem C86_final (on : Bool) (rate0 : Nat) (evs1 evs2 : List PEv) :
    ((Per.init on rate0).run rate0 (evs1 ++ .shutdown :: evs2)).ticks = ((Per.init on rate0).run rate0 evs1).ticks := by
  have hsplit : (Per.init on rate0).run rate0 (evs1 ++ .shutdown :: evs2) =
      (((Per.init on rate0).run rate0 evs1).step rate0 .shutdown).run rate0 evs2 := by
    simp only [Per.run, List.foldl_append, List.foldl_cons]
  rw [hsplit]
  generalize (Per.init on rate0).run rate0 evs1 = s
  have : ∀ (evs : List PEv) (s : Per), s.stopped = true → (s.run rate0 evs).ticks = s.ticks := by
    intro evs
    induction evs with
    | nil => intro s _; rfl
    | cons e evs ih =>
      intro s hs
      have key : (s.step rate0 e).stopped = true ∧ (s.step rate0 e).ticks = s.ticks := by
        cases e with
        | wait d => exact ⟨hs, rfl⟩
        | update b r => exact ⟨hs, rfl⟩
        | start =>
          simp only [Per.step, Per.create]
          split
          · exact ⟨hs, rfl⟩
          · split <;> exact ⟨hs, rfl⟩
        | tick =>
          simp only [Per.step]
          split
          · exact ⟨hs, rfl⟩
          · simp [hs]
        | rateChanged => simp [Per.step, hs]
        | onChanged => simp [Per.step, hs]
        | shutdown => exact ⟨rfl, rfl⟩
      show ((s.step rate0 e).run rate0 evs).ticks = _
      rw [ih _ key.1, key.2]
  exact this evs2 _ rfl

/-- Enabled, two calls at the first interval (the first at once), then a shorter one. -/
example :
    ((Per.init false 6000).run 6000 [.start, .update true 6000, .onChanged, .tick, .wait 6000, .tick, .wait 2000,
      .update true 3000, .rateChanged, .wait 3000, .tick, .tick]).ticks = [0, 6000, 11000] := by decide

/-- Switched off after 7 s and on again after 20 s: the missed ticks are not made up for. -/
example :
    ((Per.init true 3000).run 3000 [.start, .tick, .wait 3000, .tick, .wait 4000, .update false 3000, .onChanged,
      .tick, .wait 13000, .update true 3000, .onChanged, .tick, .tick, .wait 2990, .tick, .wait 10, .tick]).ticks =
      [0, 3000, 20000, 23000] := by decide

/-- C86 violated: a runtime update that sets the interval to zero panics the task of the reporter.  Nothing between the server and
`tokio::time::interval_at` checks the value; a value of another type (a string, say) for the flag also reads as zero
(bd-runtime/src/runtime.rs:96-103). -/
theorem C86_zero_violated :
    ¬ ∀ (on : Bool) (rate0 : Nat) (evs : List PEv), 0 < rate0 → ((Per.init on rate0).run rate0 evs).panicked = false := by
  intro h
  have := h false 6000 [.start, .update false 0, .rateChanged] (by decide)
  revert this
  decide

end Verif.Report
