import Verif.Report.Listener
import Mathlib.Data.List.Induction

/-
C85: the platform listener follows its flag.
-/
namespace Verif.Report

/-- The value of the flag after these events. -/
def flagAfter (b : Bool) (evs : List LEv) : Bool :=
  (evs.filterMap fun e => match e with | .update b => some b | _ => none).getLast?.getD b

theorem flagAfter_snoc (b : Bool) (evs : List LEv) (e : LEv) :
    flagAfter b (evs ++ [e]) = match e with | .update c => c | _ => flagAfter b evs := by
  cases e <;> simp [flagAfter, List.filterMap_append]

theorem run_snoc (s : Lst) (evs : List LEv) (e : LEv) : s.run (evs ++ [e]) = (s.run evs).step e := by
  simp [Lst.run]

theorem cur_run (b : Bool) (evs : List LEv) : ((Lst.init b).run evs).cur = flagAfter b evs := by
  induction evs using List.reverseRecOn with
  | nil => rfl
  | append_singleton evs e ih =>
    rw [run_snoc, flagAfter_snoc]
    cases e with
    | update c =>
      simp only [Lst.step]
      split
      · next h => exact h.symm
      · rfl
    | poll =>
      simp only [Lst.step]
      split <;> exact ih
    | shutdown => exact ih

/-- The listener's invariant, started with the flag off. -/
structure Lst.Inv (s : Lst) : Prop where
  follows : s.stopped = false → s.pending = false → (s.calls.getLast? = some .start ↔ s.cur = true)
  unseen : s.seenUpdate = false → s.calls = []

theorem inv_run (evs : List LEv) : ((Lst.init false).run evs).Inv := by
  induction evs using List.reverseRecOn with
  | nil => exact ⟨fun _ _ => by simp [Lst.run, Lst.init], fun _ => rfl⟩
  | append_singleton evs e ih =>
    rw [run_snoc]
    generalize (Lst.init false).run evs = s at *
    cases e with
    | update c =>
      simp only [Lst.step]
      split
      · exact ih
      · exact ⟨fun _ h => by simp at h, ih.unseen⟩
    | poll =>
      simp only [Lst.step]
      split
      · exact ih
      · next hp =>
        simp only [Bool.or_eq_true, Bool.not_eq_true', not_or, Bool.not_eq_true, Bool.not_eq_false] at hp
        refine ⟨fun _ _ => ?_, fun h => by simp [Lst.handle] at h⟩
        simp only [Lst.handle]
        cases hc : s.cur
        · cases hs : s.seenUpdate
          · simp [ih.unseen hs]
          · simp
        · simp
    | shutdown => exact ⟨fun h => by simp [Lst.step] at h, ih.unseen⟩

/-- C85: whenever the listener has taken its turn after the last change of the flag, the last call the platform got was `start` if the flag
is on, and `stop` or nothing at all if it is off. -/
theorem C85_follows (evs : List LEv) (h : LEv.shutdown ∉ evs) :
    ((Lst.init false).run (evs ++ [.poll])).calls.getLast? = some .start ↔ flagAfter false evs = true := by
  have hs : ∀ evs : List LEv, LEv.shutdown ∉ evs → ((Lst.init false).run evs).stopped = false := by
    intro evs
    induction evs using List.reverseRecOn with
    | nil => intro _; rfl
    | append_singleton evs e ih =>
      intro h
      rw [run_snoc]
      have ih := ih (fun hm => h (List.mem_append_left _ hm))
      cases e with
      | update c =>
        simp only [Lst.step]
        split <;> exact ih
      | poll =>
        simp only [Lst.step]
        split <;> exact ih
      | shutdown => simp at h
  have h1 := inv_run (evs ++ [.poll])
  have hstop := hs (evs ++ [.poll]) (by simp [h])
  have hpend : ((Lst.init false).run (evs ++ [.poll])).pending = false := by
    rw [run_snoc]
    simp only [Lst.step]
    have := hs evs h
    rw [this]
    cases hp : ((Lst.init false).run evs).pending <;> simp [Lst.handle, hp]
  rw [h1.follows hstop hpend, cur_run, flagAfter_snoc]

/-- C85: after the shutdown the platform is not called again. -/
theorem C85_final (b : Bool) (evs more : List LEv) :
    ((Lst.init b).run (evs ++ .shutdown :: more)).calls = ((Lst.init b).run evs).calls := by
  have : ∀ (more : List LEv) (s : Lst), s.stopped = true → (s.run more).calls = s.calls := by
    intro more
    induction more with
    | nil => intro s _; rfl
    | cons e more ih =>
      intro s hs
      have : (s.step e).stopped = true ∧ (s.step e).calls = s.calls := by
        cases e with
        | update c =>
          simp only [Lst.step]
          split <;> exact ⟨hs, rfl⟩
        | poll => simp [Lst.step, hs]
        | shutdown => exact ⟨rfl, rfl⟩
      show ((s.step e).run more).calls = _
      rw [ih _ this.1, this.2]
  rw [Lst.run, List.foldl_append, List.foldl_cons]
  exact this more _ rfl

/-- Every change of the flag is seen before the next one: the argument is the flag's value and whether a change is unseen. -/
def Prompt (cur pending : Bool) : List LEv → Prop
  | [] => True
  | .update b :: evs => (b ≠ cur → pending = false) ∧ Prompt b (pending || b != cur) evs
  | .poll :: evs => Prompt cur false evs
  | .shutdown :: evs => Prompt cur pending evs

/-- Strictly alternating, beginning with `start`. -/
def Alternates : Call → List Call → Prop
  | _, [] => True
  | c, x :: xs => x = c ∧ Alternates (match c with | .start => .stop | .stop => .start) xs

theorem alternates_append (c : Call) (l : List Call) (x : Call) (h : Alternates c l)
    (hx : x = match l.getLast? with | none => c | some .start => .stop | some .stop => .start) :
    Alternates c (l ++ [x]) := by
  induction l generalizing c with
  | nil => exact ⟨by simpa using hx, trivial⟩
  | cons a l ih =>
    obtain ⟨rfl, h2⟩ := h
    refine ⟨rfl, ih _ h2 ?_⟩
    cases l with
    | nil => cases a <;> simpa using hx
    | cons b l =>
      rw [List.getLast?_cons_cons] at hx
      rw [hx]
      cases hl : (b :: l).getLast? with
      | none => simp at hl
      | some y => cases y <;> rfl

/-- The invariant of a listener that sees every change: what it told the platform is the value before the unseen change. -/
structure Lst.PInv (s : Lst) : Prop where
  alt : Alternates .start s.calls
  last : s.stopped = false → (s.calls.getLast? = some .start ↔ (s.cur ^^ s.pending) = true)
  unseen : s.stopped = false → s.seenUpdate = false → s.calls = []
  seen : s.stopped = false → s.calls ≠ [] → s.seenUpdate = true

theorem pinv_step (s : Lst) (e : LEv) (h : s.PInv)
    (hp : s.stopped = false → ∀ b, e = .update b → b ≠ s.cur → s.pending = false) : (s.step e).PInv := by
  cases e with
  | update b =>
    simp only [Lst.step]
    split
    · exact h
    · next hb =>
      refine ⟨h.alt, fun hs => ?_, h.unseen, h.seen⟩
      have hpend := hp hs b rfl hb
      have := h.last hs
      simp only at this ⊢
      rw [this, hpend]
      cases b <;> cases hc : s.cur <;> simp_all
  | poll =>
    simp only [Lst.step]
    split
    · exact h
    · next hq =>
      simp only [Bool.or_eq_true, Bool.not_eq_true', not_or, Bool.not_eq_true, Bool.not_eq_false] at hq
      obtain ⟨hs, hpd⟩ := hq
      have hl := h.last hs
      rw [hpd] at hl
      cases hc : s.cur
      · -- switched off: it was on, so the last call was `start`
        rw [hc] at hl
        have hlast : s.calls.getLast? = some .start := hl.mpr rfl
        have hseen : s.seenUpdate = true := h.seen hs (by rintro h0; rw [h0] at hlast; simp at hlast)
        refine ⟨?_, fun _ => ?_, fun _ h' => by simp [Lst.handle] at h', fun _ _ => rfl⟩
        · simp only [Lst.handle, hc, hseen]
          exact alternates_append _ _ _ h.alt (by rw [hlast])
        · simp [Lst.handle, hc, hseen]
      · rw [hc] at hl
        have hlast : s.calls.getLast? ≠ some .start := by
          intro h'
          have := hl.mp h'
          simp at this
        refine ⟨?_, fun _ => ?_, fun _ h' => by simp [Lst.handle] at h', fun _ _ => rfl⟩
        · simp only [Lst.handle, hc]
          refine alternates_append _ _ _ h.alt ?_
          cases hg : s.calls.getLast? with
          | none => rfl
          | some y =>
            cases y with
            | start => exact absurd hg hlast
            | stop => rfl
        · simp [Lst.handle, hc]
  | shutdown => exact ⟨h.alt, fun h' => by simp [Lst.step] at h', fun h' => by simp [Lst.step] at h',
      fun h' => by simp [Lst.step] at h'⟩

/-- C85, partial: when every change of the flag is seen before the next, the calls alternate, beginning with `start`.

Missing: flags that change twice between two turns of the loop; see `C85_started_twice_violated` and `C85_stop_first_violated`. -/
theorem C85_alternates_partial (evs : List LEv) (h : Prompt false false evs) :
    Alternates .start ((Lst.init false).run evs).calls := by
  have : ∀ (evs : List LEv) (s : Lst), s.PInv → (s.stopped = false → Prompt s.cur s.pending evs) → (s.run evs).PInv := by
    intro evs
    induction evs with
    | nil => intro s hs _; exact hs
    | cons e evs ih =>
      intro s hs hp
      show ((s.step e).run evs).PInv
      cases e with
      | update b =>
        refine ih _ (pinv_step s _ hs (by rintro h0 _ ⟨⟩; exact (hp h0).1)) ?_
        simp only [Lst.step]
        by_cases hb : b = s.cur
        · rw [if_pos hb]
          subst hb
          intro h0
          simpa using (hp h0).2
        · rw [if_neg hb]
          intro h0
          have h2 := (hp h0).2
          have : (s.pending || b != s.cur) = true := by
            simp [hb]
          rw [this] at h2
          exact h2
      | poll =>
        refine ih _ (pinv_step s _ hs (by rintro _ _ ⟨⟩)) ?_
        simp only [Lst.step]
        split
        · next hq =>
          intro h0
          have hp' : Prompt s.cur false evs := hp h0
          rw [h0] at hq
          have hpd : s.pending = false := by simpa using hq
          rw [hpd]
          exact hp'
        · exact fun h0 => hp h0
      | shutdown => exact ih _ (pinv_step s _ hs (by rintro _ _ ⟨⟩)) (fun h0 => by simp [Lst.step] at h0)
  exact (this evs (Lst.init false) ⟨trivial, fun _ => by simp [Lst.init], fun _ _ => rfl, fun _ h' => absurd rfl h'⟩ (fun _ => h)).alt

/-- C85: if the flag is off when the listener takes its first turn, the platform is not called, however often it changed before. -/
theorem C85_first_off (evs : List LEv) (h : LEv.poll ∉ evs) (hf : flagAfter false evs = false) :
    ((Lst.init false).run (evs ++ [.poll])).calls = [] := by
  have hc := cur_run false evs
  have : ∀ evs : List LEv, LEv.poll ∉ evs →
      ((Lst.init false).run evs).calls = [] ∧ ((Lst.init false).run evs).seenUpdate = false := by
    intro evs
    induction evs using List.reverseRecOn with
    | nil => intro _; exact ⟨rfl, rfl⟩
    | append_singleton evs e ih =>
      intro h
      have ih := ih (fun hm => h (List.mem_append_left _ hm))
      rw [run_snoc]
      cases e with
      | update c =>
        simp only [Lst.step]
        split <;> exact ih
      | poll => simp at h
      | shutdown => exact ih
  obtain ⟨h1, h2⟩ := this evs h
  rw [run_snoc]
  simp only [Lst.step]
  split
  · exact h1
  · simp [Lst.handle, h1, h2, hc, hf]

/-- On, off and on again, seen one at a time. -/
example : Prompt false false [.update true, .poll, .poll, .update true, .update false, .poll, .update true, .poll] ∧
    ((Lst.init false).run [.update true, .poll, .poll, .update true, .update false, .poll, .update true, .poll]).calls =
      [.start, .stop, .start] := by
  refine ⟨?_, by decide⟩
  simp [Prompt]

/-- C85 violated: the flag goes off and on again between two turns of the loop (two runtime updates in a row); the platform is told to start
although it was started and never stopped. -/
theorem C85_started_twice_violated :
    ¬ ∀ evs : List LEv, Alternates .start ((Lst.init false).run evs).calls := by
  intro h
  have := h [.update true, .poll, .update false, .update true, .poll]
  simp [Lst.run, Lst.init, Lst.step, Lst.handle, Alternates] at this

/-- C85 violated: the flag goes on and off between two turns, twice.  The comment in the code says "Stop only if event listener was
previously started", but what is checked is that some change was seen: the platform is told to stop without having been started. -/
theorem C85_stop_first_violated :
    ∃ evs : List LEv, ((Lst.init false).run evs).calls = [.stop] :=
  ⟨[.update true, .update false, .poll, .update true, .update false, .poll], by decide⟩

/-- C85 violated: a listener created when the flag is already on does not start the platform: only changes are looked at.  (The logger
creates it before any configuration is read, when the flag has its default, off.) -/
theorem C85_initially_on_violated :
    ((Lst.init true).run [.poll, .poll]).calls = [] := by decide

end Verif.Report
