import Verif.Errors.Model
/-
C80: unexpected errors are reported a bounded number of times and accounted for.
C81: repeated warnings are spaced.
-/
namespace Verif.Errors

/-! ### C80 -/

/-- The reports of a run of calls: text and details, in order. -/
def asked : List Call → List (String × Option String)
  | [] => []
  | .report _ m d x :: cs => (d ++ ": " ++ m, x) :: asked cs
  | _ :: cs => asked cs

/-- The reports that reached a reporter. -/
def told : List Event → List (String × Option String)
  | [] => []
  | .told _ s x :: es => (s, x) :: told es
  | .dropped _ :: es => told es

/-- The number of dropped reports that were counted with counter `c`. -/
def counted (c : Nat) : List Event → Nat
  | [] => 0
  | .dropped k :: es => (if k = some c then 1 else 0) + counted c es
  | .told _ _ _ :: es => counted c es

/-- The number of dropped reports. -/
def drops : List Event → Nat
  | [] => 0
  | .dropped _ :: es => 1 + drops es
  | .told _ _ _ :: es => drops es

theorem told_append (a b : List Event) : told (a ++ b) = told a ++ told b := by
  induction a with
  | nil => rfl
  | cons e a ih => cases e <;> simp [told, ih]

theorem drops_append (a b : List Event) : drops (a ++ b) = drops a + drops b := by
  induction a with
  | nil => simp [drops]
  | cons e a ih => cases e <;> simp [drops, ih]; omega

theorem counted_append (c : Nat) (a b : List Event) :
    counted c (a ++ b) = counted c a + counted c b := by
  induction a with
  | nil => simp [counted]
  | cons e a ih => cases e <;> simp [counted, ih]; omega

theorem run_told (cs : List Call) : ∀ h : Handler,
    ∃ n, n ≤ h.remaining ∧ told (h.run cs).2 = (asked cs).take n ∧
      (Call.disable ∉ cs → n = h.remaining) := by
  induction cs with
  | nil => intro h; exact ⟨h.remaining, Nat.le_refl _, by simp [Handler.run, told, asked], fun _ => rfl⟩
  | cons c cs ih =>
    intro h
    cases c with
    | report t m d x =>
      simp only [Handler.run, Handler.step, Handler.report, told_append]
      by_cases h0 : h.remaining = 0
      · obtain ⟨n, h1, h2, h3⟩ := ih h
        rw [if_pos h0]
        refine ⟨0, by omega, ?_, fun _ => by omega⟩
        have : n = 0 := by omega
        subst this
        simp [told, h2]
      · obtain ⟨n, h1, h2, h3⟩ := ih { h with remaining := h.remaining - 1 }
        rw [if_neg h0]
        simp only at h1 h3
        refine ⟨n + 1, by omega, ?_, ?_⟩
        · simp [told, asked, h2]
        · intro hd
          have := h3 (fun hm => hd (by simp [hm]))
          omega
    | disable =>
      obtain ⟨n, h1, h2, h3⟩ := ih { h with remaining := 0 }
      refine ⟨n, by simp only at h1; omega, ?_, fun hd => absurd (by simp) hd⟩
      simp [Handler.run, Handler.step, told, asked, h2]
    | setReporter r =>
      obtain ⟨n, h1, h2, h3⟩ := ih { h with reporter := r }
      exact ⟨n, h1, by simp [Handler.run, Handler.step, asked, h2], fun hd => h3 (fun hm => hd (by simp [hm]))⟩
    | clear =>
      obtain ⟨n, h1, h2, h3⟩ := ih { h with reporter := 0 }
      exact ⟨n, h1, by simp [Handler.run, Handler.step, asked, h2], fun hd => h3 (fun hm => hd (by simp [hm]))⟩
    | register c =>
      obtain ⟨n, h1, h2, h3⟩ := ih { h with counter := some c }
      exact ⟨n, h1, by simp [Handler.run, Handler.step, asked, h2], fun hd => h3 (fun hm => hd (by simp [hm]))⟩
    | enter t r =>
      obtain ⟨n, h1, h2, h3⟩ := ih { h with override := fun u => if u = t then some r else h.override u }
      exact ⟨n, h1, by simp [Handler.run, Handler.step, asked, h2], fun hd => h3 (fun hm => hd (by simp [hm]))⟩
    | leave t =>
      obtain ⟨n, h1, h2, h3⟩ := ih { h with override := fun u => if u = t then none else h.override u }
      exact ⟨n, h1, by simp [Handler.run, Handler.step, asked, h2], fun hd => h3 (fun hm => hd (by simp [hm]))⟩

/-- **C80** in a process, at most five reports reach a reporter; they are the first ones, in order,
unchanged and with their details. -/
theorem C80_limit (cs : List Call) :
    ∃ n ≤ 5, told (Handler.new.run cs).2 = (asked cs).take n := by
  obtain ⟨n, h1, h2, _⟩ := run_told cs Handler.new
  exact ⟨n, h1, h2⟩

/-- **C80** without `disable`, exactly the first five reports reach a reporter. -/
theorem C80_first_five (cs : List Call) (h : Call.disable ∉ cs) :
    told (Handler.new.run cs).2 = (asked cs).take 5 := by
  obtain ⟨n, _, h2, h3⟩ := run_told cs Handler.new
  have := h3 h
  rw [h2, this]; rfl

theorem run_append (cs ds : List Call) : ∀ h : Handler,
    h.run (cs ++ ds) = (((h.run cs).1.run ds).1, (h.run cs).2 ++ ((h.run cs).1.run ds).2) := by
  induction cs with
  | nil => intro h; simp [Handler.run]
  | cons c cs ih => intro h; simp [Handler.run, ih]

/-- **C80** after `disable` nothing reaches a reporter. -/
theorem C80_disabled (cs ds : List Call) :
    told ((Handler.new.run (cs ++ [.disable])).1.run ds).2 = [] := by
  obtain ⟨n, h1, h2, _⟩ := run_told ds (Handler.new.run (cs ++ [.disable])).1
  have : (Handler.new.run (cs ++ [.disable])).1.remaining = 0 := by
    rw [run_append]; rfl
  have h0 : n = 0 := by omega
  subst h0
  simpa using h2

/-- **C80** every report is told or dropped. -/
theorem C80_accounted (cs : List Call) : ∀ h : Handler,
    (asked cs).length = (told (h.run cs).2).length + drops (h.run cs).2 := by
  induction cs with
  | nil => intro h; rfl
  | cons c cs ih =>
    intro h
    simp only [Handler.run, told_append, drops_append, List.length_append]
    cases c with
    | report t m d x =>
      simp only [Handler.step, Handler.report]
      split
      · have := ih h
        simp only [asked, told, drops, List.length_cons, List.length_nil]
        omega
      · have := ih { h with remaining := h.remaining - 1 }
        simp only [asked, told, drops, List.length_cons, List.length_nil]
        omega
    | _ =>
      simp only [Handler.step, asked, told, drops, List.length_nil, Nat.zero_add]
      exact ih _

/-- **C80** while counter `c` is the registered one, every dropped report is counted with it. -/
theorem C80_counted (c : Nat) (cs : List Call) (hc : ∀ c', Call.register c' ∉ cs) : ∀ h : Handler,
    h.counter = some c → counted c (h.run cs).2 = drops (h.run cs).2 := by
  induction cs with
  | nil => intro h _; rfl
  | cons k cs ih =>
    intro h hh
    have hc' : ∀ c', Call.register c' ∉ cs := fun c' hm => hc c' (by simp [hm])
    simp only [Handler.run, drops_append, counted_append]
    cases k with
    | report t m d x =>
      simp only [Handler.step, Handler.report]
      split
      · rw [ih hc' h hh]
        simp [counted, drops, hh]
      · rw [ih hc' _ (by exact hh)]
        simp [counted, drops]
    | register c' => exact absurd (by simp) (hc c')
    | _ =>
      simp only [Handler.step, counted, drops]
      rw [ih hc' _ (by exact hh)]

/-- The reporter a report on thread `t` is meant for after the calls `cs` (latest call first): the
one of the innermost `with_reporter` of the thread that is still open, otherwise the one set last. -/
def openOn (t : Nat) : List Call → Nat → Option Nat
  | [], _ => none
  | .leave u :: cs, k => openOn t cs (if u = t then k + 1 else k)
  | .enter u r :: cs, k =>
    if u = t then (if k = 0 then some r else openOn t cs (k - 1)) else openOn t cs k
  | _ :: cs, k => openOn t cs k

/-- The reporter set last (latest call first). -/
def lastSet : List Call → Nat
  | [] => 0
  | .setReporter r :: _ => r
  | .clear :: _ => 0
  | _ :: cs => lastSet cs

theorem lastSet_run (cs : List Call) : ∀ (h : Handler) (past : List Call),
    h.reporter = lastSet past → (h.run cs).1.reporter = lastSet (cs.reverse ++ past) := by
  induction cs with
  | nil => intro h past hp; simpa [Handler.run] using hp
  | cons c cs ih =>
    intro h past hp
    have := ih (h.step c).1 (c :: past) (by
      cases c <;> simp [Handler.step, lastSet, hp]
      simp only [Handler.report]; split <;> exact hp)
    simpa [Handler.run] using this

/-- The overrides of a thread are used one at a time: an `enter` on `t` only when none is open. -/
def flat (t : Nat) : List Call → Bool → Bool
  | [], _ => true
  | .enter u _ :: cs, o => if u = t then !o && flat t cs true else flat t cs o
  | .leave u :: cs, o => if u = t then o && flat t cs false else flat t cs o
  | _ :: cs, o => flat t cs o

/-- Invariant for flat use: the override is the open one, and before it nothing is open. -/
def OpenInv (t : Nat) (h : Handler) (past : List Call) : Prop :=
  h.override t = openOn t past 0 ∧
    (h.override t ≠ none → openOn t past 1 = none)

theorem open_run (t : Nat) (cs : List Call) : ∀ (h : Handler) (past : List Call),
    OpenInv t h past → flat t cs (h.override t).isSome = true →
    OpenInv t (h.run cs).1 (cs.reverse ++ past) := by
  induction cs with
  | nil => intro h past hi _; simpa [Handler.run] using hi
  | cons c cs ih =>
    intro h past hi hf
    have goal : OpenInv t (h.step c).1 (c :: past) ∧
        flat t cs ((h.step c).1.override t).isSome = true := by
      obtain ⟨h1, h2⟩ := hi
      cases c with
      | enter u r =>
        by_cases hu : u = t
        · subst hu
          simp only [flat, if_true, Bool.and_eq_true, Bool.not_eq_true'] at hf
          have hn : h.override u = none := by
            cases ho : h.override u with
            | none => rfl
            | some y => simp [ho] at hf
          refine ⟨⟨by simp [Handler.step, openOn], ?_⟩, by simpa [Handler.step] using hf.2⟩
          intro _
          simp only [openOn, if_true]
          rw [if_neg (by omega)]
          simpa using h1.symm.trans hn
        · have hu' : ¬ t = u := fun e => hu e.symm
          simp only [flat, hu, if_false] at hf
          refine ⟨⟨?_, ?_⟩, by simpa [Handler.step, hu'] using hf⟩
          · simpa [Handler.step, openOn, hu, hu'] using h1
          · simpa [Handler.step, openOn, hu, hu'] using h2
      | leave u =>
        by_cases hu : u = t
        · subst hu
          simp only [flat, if_true, Bool.and_eq_true] at hf
          have hs : h.override u ≠ none := by
            intro e; simp [e] at hf
          refine ⟨⟨?_, ?_⟩, by simpa [Handler.step] using hf.2⟩
          · simp only [Handler.step, openOn, if_true]
            exact (h2 hs).symm
          · intro hne
            simp [Handler.step] at hne
        · have hu' : ¬ t = u := fun e => hu e.symm
          simp only [flat, hu, if_false] at hf
          refine ⟨⟨?_, ?_⟩, by simpa [Handler.step, hu'] using hf⟩
          · simpa [Handler.step, openOn, hu, hu'] using h1
          · simpa [Handler.step, openOn, hu, hu'] using h2
      | report t' m d x =>
        have e : (h.report t' m d x).1.override = h.override := by
          simp only [Handler.report]; split <;> rfl
        refine ⟨⟨?_, ?_⟩, ?_⟩
        · simpa [Handler.step, openOn, e] using h1
        · simpa [Handler.step, openOn, e] using h2
        · simpa [Handler.step, e, flat] using hf
      | _ => exact ⟨⟨h1, h2⟩, by simpa [flat, Handler.step] using hf⟩
    have := ih (h.step c).1 (c :: past) goal.1 goal.2
    simpa [Handler.run] using this

/-- **C80 (partial)** a report goes to the reporter of the open `with_reporter` of its thread, and
otherwise to the reporter set last, if the `with_reporter` calls of the thread are not nested.
Missing: nested calls, see `C80_nested_violated`. -/
theorem C80_target_partial (cs : List Call) (t : Nat) (m d : String) (x : Option String)
    (hf : flat t cs false = true) (r : Nat) (s : String) (x' : Option String)
    (h : ((Handler.new.run cs).1.report t m d x).2 = .told r s x') :
    r = ((openOn t cs.reverse 0).getD (lastSet cs.reverse)) := by
  have h1 := open_run t cs Handler.new [] ⟨rfl, fun h => absurd rfl h⟩ hf
  have h2 := lastSet_run cs Handler.new [] rfl
  rw [List.append_nil] at h1 h2
  unfold Handler.report at h
  split at h
  · cases h
  · simp only [Event.told.injEq] at h
    rw [← h.1, h1.1, h2]

/-- **C80 violated**: the end of an inner `with_reporter` removes the outer one too: the second
report goes to the global reporter 1 instead of the outer reporter 2. -/
theorem C80_nested_violated :
    (Handler.new.run [.setReporter 1, .enter 0 2, .enter 0 3, .report 0 "a" "x" none, .leave 0,
      .report 0 "b" "x" none, .leave 0]).2 = [.told 3 "x: a" none, .told 1 "x: b" none] ∧
    openOn 0 [.leave 0, .enter 0 3, .enter 0 2, .setReporter 1] 0 = some 2 := by
  constructor <;> decide

theorem lookup_ne (l : List (String × String)) {k k' : String} (v : String) (h : k' ≠ k) :
    ((k, v) :: l).lookup k' = l.lookup k' := by
  have : (k' == k) = false := by simpa using h
  simp [List.lookup, this]

theorem lookup_insert (l : List (String × String)) (k v k' : String) :
    (insertField l k v).lookup k' = if k' = k then some v else l.lookup k' := by
  unfold insertField
  by_cases h : k' = k
  · subst h; simp
  · simp only [h, if_false]
    rw [lookup_ne _ _ h]
    induction l with
    | nil => rfl
    | cons e l ih =>
      obtain ⟨a, b⟩ := e
      by_cases ha : a = k
      · subst ha
        simp only [ne_eq, not_true_eq_false, decide_false, Bool.false_eq_true, not_false_eq_true,
          List.filter_cons_of_neg]
        rw [lookup_ne _ _ h]
        exact ih
      · simp only [ne_eq, ha, not_false_eq_true, decide_true, List.filter_cons_of_pos]
        by_cases hk : k' = a
        · subst hk; simp
        · rw [lookup_ne _ _ hk, lookup_ne _ _ hk]
          exact ih

/-- **C80 (partial)** the fields of a report with metadata contain the session identifier, if no
metadata key is spelled `session_id` or `session-id`. -/
theorem C80_session_partial (fields collected : List (String × String)) (session : String)
    (h : ∀ e ∈ collected, "x-" ++ dashed e.1 ≠ "x-session-id") :
    (metaFields fields session collected).lookup "x-session-id" = some session := by
  unfold metaFields
  have : ∀ (c : List (String × String)) (l : List (String × String)),
      (∀ e ∈ c, "x-" ++ dashed e.1 ≠ "x-session-id") → l.lookup "x-session-id" = some session →
      (c.foldl (fun l e => insertField l ("x-" ++ dashed e.1) e.2) l).lookup "x-session-id"
        = some session := by
    intro c
    induction c with
    | nil => intro l _ hl; exact hl
    | cons e c ih =>
      intro l hc hl
      refine ih _ (fun e' he' => hc e' (by simp [he'])) ?_
      rw [lookup_insert, if_neg (fun e' => hc e (by simp) e'.symm), hl]
  exact this collected _ h (by rw [lookup_insert]; simp)

/-- **C80 violated**: a metadata value named `session_id` replaces the session identifier. -/
theorem C80_session_violated :
    (metaFields [] "S1" [("session_id", "other")]).lookup "x-session-id" = some "other" := by
  decide +kernel

example : (Handler.new.run [.register 7, .setReporter 1, .report 0 "m1" "d" (some "x"),
    .report 0 "m2" "d" none, .enter 3 9, .report 3 "m3" "d" none, .leave 3, .report 3 "m4" "d" none,
    .report 0 "m5" "d" none, .report 0 "m6" "d" none]).2
    = [.told 1 "d: m1" (some "x"), .told 1 "d: m2" none, .told 9 "d: m3" none,
       .told 1 "d: m4" none, .told 1 "d: m5" none, .dropped (some 7)] := by decide

/-! ### C81 -/

/-- Spaced: every entry is later than the one before by more than its own duration. -/
def Spaced : Option Nat → List (Nat × Int) → Prop
  | _, [] => True
  | none, (t, _) :: r => Spaced (some t) r
  | some l, (t, d) :: r => (t : Int) - l > d ∧ Spaced (some t) r

theorem warned_spaced (cs : List (Nat × Int)) (hd : ∀ c ∈ cs, 0 ≤ c.2) : ∀ last,
    Spaced last (warned last cs) := by
  induction cs with
  | nil => intro last; cases last <;> trivial
  | cons c cs ih =>
    obtain ⟨t, d⟩ := c
    intro last
    have ih' := ih (fun c hc => hd c (by simp [hc]))
    have h0 := hd (t, d) (by simp)
    simp only at h0
    simp only [warned]
    split
    · rename_i hw
      cases last with
      | none => exact ih' _
      | some l =>
        refine ⟨?_, ih' _⟩
        simp only [shouldWarn, decide_eq_true_eq] at hw
        omega
    · exact ih' _

/-- **C81** two consecutive warnings of one place are more than the duration apart, whatever the
order in which threads take the lock. -/
theorem C81_spaced (cs : List (Nat × Int)) (hd : ∀ c ∈ cs, 0 ≤ c.2) :
    Spaced none (warned none cs) := warned_spaced cs hd none

theorem spaced_count (d : Nat) : ∀ (ws : List (Nat × Int)) (l : Nat), (∀ w ∈ ws, w.2 = (d : Int)) →
    Spaced (some l) ws → ∀ e, (ws.map (·.1)).getLast? = some e → l + ws.length * (d + 1) ≤ e
  | [], _, _, _ => by simp
  | [(t, dd)], l, hc, h => by
    intro e he
    have := hc (t, dd) (by simp)
    have hs : (t : Int) - l > dd := h.1
    simp only [List.map_cons, List.map_nil, List.getLast?_singleton, Option.some.injEq] at he
    simp only [List.length_singleton]
    simp only at this
    omega
  | (t, dd) :: w2 :: ws, l, hc, h => by
    intro e he
    have h0 := hc (t, dd) (by simp)
    have hs : (t : Int) - l > dd := h.1
    have ih := spaced_count d (w2 :: ws) t (fun w hw => hc w (by simp [List.mem_cons.mp hw])) h.2 e
      (by simpa using he)
    simp only [List.length_cons] at ih ⊢
    simp only at h0
    have : (ws.length + 1 + 1) * (d + 1) = (ws.length + 1) * (d + 1) + (d + 1) := by
      rw [Nat.add_mul, Nat.one_mul]
    omega

theorem warned_mem (cs : List (Nat × Int)) : ∀ last, ∀ w ∈ warned last cs, w ∈ cs := by
  induction cs with
  | nil => intro last w hw; simp [warned] at hw
  | cons c cs ih =>
    intro last w hw
    simp only [warned] at hw
    split at hw
    · rcases List.mem_cons.mp hw with h | h
      · simp [h]
      · simp [ih _ w h]
    · simp [ih _ w hw]

/-- **C81** with a fixed duration `d`, the number of warnings between a first one at time `a` and a
last one at time `b` is at most `(b - a) / (d + 1) + 1`. -/
theorem C81_bounded (cs : List (Nat × Int)) (d : Nat) (hd : ∀ c ∈ cs, c.2 = (d : Int))
    (a b : Nat) (ha : ((warned none cs).map (·.1)).head? = some a)
    (hb : ((warned none cs).map (·.1)).getLast? = some b) :
    a + ((warned none cs).length - 1) * (d + 1) ≤ b := by
  have hs := C81_spaced cs (fun c hc => by rw [hd c hc]; omega)
  have hm : ∀ w ∈ warned none cs, w.2 = (d : Int) := fun w hw => hd w (warned_mem cs none w hw)
  cases hw : warned none cs with
  | nil => rw [hw] at ha; simp at ha
  | cons w ws =>
    obtain ⟨t, dd⟩ := w
    rw [hw] at ha hb hs hm
    simp only [List.map_cons, List.head?_cons, Option.some.injEq] at ha
    subst ha
    cases ws with
    | nil =>
      simp only [List.map_cons, List.map_nil, List.getLast?_singleton, Option.some.injEq] at hb
      subst hb; simp
    | cons w2 ws =>
      have := spaced_count d (w2 :: ws) t (fun w hw => hm w (by simp [List.mem_cons.mp hw])) hs b
        (by simpa using hb)
      simpa using this

/-- **C81** a call is silent only if a warning of the same place is at most its duration old, and
the first call always warns. -/
theorem C81_not_lost (last : Option Nat) (now : Nat) (d : Int)
    (h : shouldWarn last now d = false) : ∃ l, last = some l ∧ (now : Int) - l ≤ d := by
  cases last with
  | none => simp [shouldWarn] at h
  | some l =>
    simp only [shouldWarn, decide_eq_false_iff_not] at h
    exact ⟨l, rfl, by omega⟩

/-- **C81** the flags and the list of warned calls agree: a call warned exactly when its flag is
set. -/
theorem C81_flags (cs : List (Nat × Int)) : ∀ last,
    ((cs.zip (warns last cs)).filter (·.2)).map (·.1) = warned last cs := by
  induction cs with
  | nil => intro last; rfl
  | cons c cs ih =>
    obtain ⟨t, d⟩ := c
    intro last
    simp only [warns, warned, List.zip_cons_cons]
    cases hw : shouldWarn last t d with
    | true => simp [ih]
    | false => simp [ih]

example : warns none [(100, 15), (110, 15), (115, 15), (116, 15), (130, 15), (132, 15)]
    = [true, false, false, true, false, true] := by decide

end Verif.Errors
