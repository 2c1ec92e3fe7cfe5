import Verif.Workflow.RunLemmas

/-! Facts about the loop over the runs of a workflow. -/
namespace Verif.Wf

/-- The counter of the engine survives this run being stopped: either only its duration can stop it, or it has at most
one traversal. -/
def Smooth (c : Config) (r : Run) : Prop := c.maxMatched = none ∨ r.traversals.length ≤ 1

/-- No state of the workflow has two ways out. -/
def Config.linear (c : Config) : Prop := ∀ s ∈ c.states, s.transitions.length ≤ 1

theorem transitions_linear {c : Config} (h : c.linear) (i : Nat) : (c.transitions i).length ≤ 1 := by
  unfold Config.transitions
  split
  · rename_i s hs
    exact h s (List.mem_of_getElem? hs)
  · simp

theorem acc_small (c : Config) (log : Log) (m : Nat) (f : Option Nat) (h : c.linear) : ∀ (ts : List Traversal),
    (ts.foldr (RunAcc.visit c log) { matched := m, first := f }).done.length ≤ ts.length
  | [] => by simp
  | t :: ts => by
    have ih := acc_small c log m f h ts
    simp only [List.foldr_cons]
    generalize ts.foldr (RunAcc.visit c log) { matched := m, first := f } = a at ih ⊢
    have hf := scan_followed c t.sankeys log (c.transitions t.state) t.counts
    have hl := transitions_linear h t.state
    unfold RunAcc.visit
    split
    · simp; exact ih
    · unfold RunAcc.take
      split
      · simp; exact ih
      · split
        · simp; exact ih
        · dsimp only
          split
          · simp; exact ih
          · have : (t.process c log).2.outputs.length ≤ 1 := by
              show (scan c t.sankeys log (c.transitions t.state) t.counts).2.outputs.length ≤ 1
              omega
            simp only [List.length_append, List.length_cons]; omega

theorem Run.new_length (c : Config) : (Run.new c).traversals.length ≤ 1 := by
  unfold Run.new
  cases Traversal.new c 0 [] <;> simp

theorem Run.process_stopped {c : Config} {log : Log} {r : Run} (hs : Smooth c r)
    (h : (r.process c log).2.state = .stopped) :
    (r.process c log).1.traversals.length = r.traversals.length ∧ (r.process c log).2.created = 0 ∧
      (r.process c log).2.completed = 0 := by
  have hst : (r.acc c log).stopped = true := by
    unfold Run.process RunAcc.result at h
    dsimp only at h
    split at h
    · assumption
    · dsimp only at h
      split at h <;> cases h
  refine ⟨?_, ?_, ?_⟩
  · show (r.acc c log).done.length = _
    rcases hs with hs | hs
    · exact (acc_stopped_duration c log r.matched r.first hs r.traversals hst).1
    · exact acc_stopped_single c log r hs hst
  · unfold Run.process RunAcc.result
    dsimp only
    rw [if_pos hst]
  · unfold Run.process RunAcc.result
    dsimp only
    rw [if_pos hst]

theorem Run.process_balance {c : Config} {log : Log} {r : Run} (h : (r.process c log).2.state ≠ .stopped) :
    (r.process c log).1.traversals.length + (r.process c log).2.completed =
      r.traversals.length + (r.process c log).2.created := by
  have hst : (r.acc c log).stopped = false := by
    cases hh : (r.acc c log).stopped with
    | false => rfl
    | true =>
      unfold Run.process RunAcc.result at h
      dsimp only at h
      rw [if_pos hh] at h
      exact absurd rfl h
  have := acc_balance c log r.matched r.first r.traversals hst
  unfold Run.process RunAcc.result RunAcc.run
  dsimp only
  rw [if_neg (by rw [hst]; decide)]
  exact this

theorem Run.process_completed {c : Config} {log : Log} {r : Run} (h : (r.process c log).2.state = .completed) :
    (r.process c log).1.traversals = [] := by
  unfold Run.process RunAcc.result at h
  dsimp only at h
  split at h
  · cases h
  · dsimp only at h
    split at h
    · rename_i _ h'
      show (r.acc c log).done = []
      simpa using h'
    · cases h

theorem Run.process_small {c : Config} {log : Log} {r : Run} (h : c.linear) :
    (r.process c log).1.traversals.length ≤ r.traversals.length :=
  acc_small c log r.matched r.first h r.traversals

theorem travCount_cons (r : Run) (l : List Run) : travCount (r :: l) = r.traversals.length + travCount l := by
  simp [travCount]

theorem travCount_append (a b : List Run) : travCount (a ++ b) = travCount a + travCount b := by
  simp [travCount]

theorem travCount_eraseIdx : ∀ (l : List Run) (i : Nat) (r : Run), l[i]? = some r →
    travCount l = r.traversals.length + travCount (l.eraseIdx i)
  | [], i, r, h => by simp at h
  | x :: l, 0, r, h => by
    have : x = r := by simpa using h
    subst this
    simp [travCount_cons]
  | x :: l, i + 1, r, h => by
    have := travCount_eraseIdx l i r (by simpa using h)
    simp only [List.eraseIdx_cons_succ, travCount_cons]
    omega

/-- The counter and the runs agree. -/
def WfAcc.sound (a : WfAcc) (base limit : Nat) : Prop := a.count = base + travCount a.done ∧ a.count ≤ limit

theorem settle_sound {a : WfAcc} {c : Config} {log : Log} {base limit : Nat} {r : Run}
    (h : a.sound (base + r.traversals.length) limit) (hs : Smooth c r) :
    ((a.incorporate (r.process c log).2).settle limit (r.process c log).1 (r.process c log).2).sound base limit := by
  obtain ⟨h1, h2⟩ := h
  unfold WfAcc.settle
  by_cases hst : (r.process c log).2.state = .stopped
  · rw [if_pos (.inl hst)]
    obtain ⟨e1, e2, e3⟩ := Run.process_stopped hs hst
    unfold WfAcc.incorporate WfAcc.sound
    dsimp only
    rw [e1, e2, e3]
    constructor <;> omega
  · have hb := Run.process_balance (c := c) (log := log) (r := r) hst
    split
    · unfold WfAcc.incorporate WfAcc.sound
      dsimp only
      constructor <;> omega
    · rename_i hover
      have hle : (a.incorporate (r.process c log).2).count ≤ limit := by
        apply Nat.le_of_not_gt
        intro h
        exact hover (.inr h)
      unfold WfAcc.incorporate at hle
      dsimp only at hle
      split
      · rename_i hc
        have := Run.process_completed hc
        rw [this] at hb
        unfold WfAcc.incorporate WfAcc.sound
        dsimp only at hb ⊢
        simp only [List.length_nil] at hb
        constructor <;> omega
      · unfold WfAcc.incorporate WfAcc.sound
        dsimp only
        rw [travCount_cons]
        constructor <;> omega

theorem exclusive_sound {a : WfAcc} {c : Config} {log : Log} {base limit before : Nat} (h : a.sound base limit) :
    (a.exclusive c log before).sound base limit := by
  obtain ⟨h1, h2⟩ := h
  unfold WfAcc.exclusive
  split
  · split
    · split
      · rename_i r hr
        have := travCount_eraseIdx a.done 1 r hr
        unfold WfAcc.sound
        dsimp only
        constructor <;> omega
      · exact ⟨h1, h2⟩
    · exact ⟨h1, h2⟩
  · exact ⟨h1, h2⟩

theorem loop_sound (c : Config) (log : Log) (limit : Nat) (init : WfAcc) : ∀ (rs : List Run) (i base : Nat),
    (∀ r ∈ rs, Smooth c r) → init.done = [] → init.count = base + travCount rs → init.count ≤ limit →
      (loop c log limit init i rs).sound base limit
  | [], i, base, _, hd, hc, hl => by
    unfold loop WfAcc.sound
    rw [hd]
    exact ⟨hc, hl⟩
  | r :: rs, i, base, hs, hd, hc, hl => by
    have ih := loop_sound c log limit init rs (i + 1) (base + r.traversals.length)
      (fun x hx => hs x (List.mem_cons_of_mem _ hx)) hd (by rw [hc, travCount_cons]; omega) hl
    unfold loop
    generalize loop c log limit init (i + 1) rs = a at ih ⊢
    have hr := hs r List.mem_cons_self
    unfold WfAcc.visit
    split
    · obtain ⟨h1, h2⟩ := ih
      unfold WfAcc.sound
      dsimp only
      rw [travCount_cons]
      constructor <;> omega
    · split
      · exact exclusive_sound (settle_sound ih hr)
      · exact settle_sound ih hr

theorem prepare_spec (c : Config) (limit count : Nat) (runs : List Run) :
    (prepare c limit count runs = (runs, count, {}) ∧ needsNew runs = false) ∨
    (prepare c limit count runs = (runs, count, { limitHit := 1 }) ∧ needsNew runs = true ∧
      ¬ (Run.new c).traversals.length + count ≤ limit) ∨
    (prepare c limit count runs = (if c.exclusive then Run.new c :: runs else runs ++ [Run.new c],
      count + (Run.new c).traversals.length, { createdRuns := 1, created := (Run.new c).traversals.length }) ∧
      needsNew runs = true ∧ (Run.new c).traversals.length + count ≤ limit) := by
  unfold prepare addRun
  split
  · rename_i h
    split
    · rename_i h'
      exact .inr (.inr ⟨rfl, h, h'⟩)
    · rename_i h'
      exact .inr (.inl ⟨rfl, h, h'⟩)
  · rename_i h
    exact .inl ⟨rfl, by simpa using h⟩

/-- One log through one workflow: the counter moves with the traversals and stays within the limit. -/
theorem processRuns_sound {c : Config} {limit count base : Nat} {log : Log} {runs : List Run}
    (hs : ∀ r ∈ runs, Smooth c r) (hc : count = base + travCount runs) (hl : count ≤ limit) :
    (processRuns c limit log count runs).count = base + travCount (processRuns c limit log count runs).done ∧
      (processRuns c limit log count runs).count ≤ limit := by
  unfold processRuns
  rcases prepare_spec c limit count runs with ⟨h, _⟩ | ⟨h, _, _⟩ | ⟨h, _, hle⟩ <;> rw [h]
  · exact loop_sound c log limit _ runs 0 base hs rfl hc hl
  · exact loop_sound c log limit _ runs 0 base hs rfl hc hl
  · refine loop_sound c log limit _ _ 0 base ?_ rfl ?_ (by dsimp only; omega)
    · intro r hr
      have : r = Run.new c ∨ r ∈ runs := by
        dsimp only at hr
        split at hr
        · exact List.mem_cons.1 hr
        · rcases List.mem_append.1 hr with h | h
          · exact .inr h
          · exact .inl (by simpa using h)
      rcases this with rfl | h
      · exact .inr (Run.new_length c)
      · exact hs r h
    · dsimp only
      split
      · rw [travCount_cons]; omega
      · rw [travCount_append, travCount_cons]
        simp only [travCount, List.map_nil, List.sum_nil]
        simp only [travCount] at hc
        omega

/-! ### Where the runs come from -/

theorem exclusive_done {a : WfAcc} {c : Config} {log : Log} {before : Nat} :
    ∀ x ∈ (a.exclusive c log before).done, x ∈ a.done := by
  unfold WfAcc.exclusive
  split
  · split
    · split
      · intro x hx
        exact List.mem_of_mem_eraseIdx hx
      · exact fun x h => h
    · exact fun x h => h
  · exact fun x h => h

theorem settle_done {a : WfAcc} {limit : Nat} {run : Run} {r : RunResult} :
    ∀ x ∈ (a.settle limit run r).done, x = run ∧ r.state = .running ∨ x ∈ a.done := by
  unfold WfAcc.settle
  split
  · exact fun x h => .inr h
  · rename_i h1
    split
    · exact fun x h => .inr h
    · rename_i h2
      intro x h
      rcases List.mem_cons.1 h with rfl | h
      · left
        refine ⟨rfl, ?_⟩
        cases hs : r.state with
        | running => rfl
        | completed => exact absurd hs h2
        | stopped => exact absurd (.inl hs) h1
      · exact .inr h

/-- The runs of a workflow after a log: some it had, and some of these continued. -/
theorem loop_done (c : Config) (log : Log) (limit : Nat) (init : WfAcc) : ∀ (rs : List Run) (i : Nat), init.done = [] →
    ∀ x ∈ (loop c log limit init i rs).done,
      x ∈ rs ∨ ∃ r ∈ rs, x = (r.process c log).1 ∧ (r.process c log).2.state = .running
  | [], i, hd, x, h => by unfold loop at h; rw [hd] at h; cases h
  | r :: rs, i, hd, x, h => by
    have ih := loop_done c log limit init rs (i + 1) hd
    unfold loop at h
    generalize loop c log limit init (i + 1) rs = a at ih h
    have key : x ∈ a.done → x ∈ r :: rs ∨ ∃ y ∈ r :: rs, x = (y.process c log).1 ∧ (y.process c log).2.state = .running := by
      intro hx
      rcases ih x hx with h | ⟨y, hy, h⟩
      · exact .inl (List.mem_cons_of_mem _ h)
      · exact .inr ⟨y, List.mem_cons_of_mem _ hy, h⟩
    unfold WfAcc.visit at h
    split at h
    · rcases List.mem_cons.1 h with rfl | h
      · exact .inl List.mem_cons_self
      · exact key h
    · have h' : x ∈ ((a.incorporate (r.process c log).2).settle limit (r.process c log).1 (r.process c log).2).done := by
        split at h
        · exact exclusive_done x h
        · exact h
      rcases settle_done x h' with ⟨rfl, hr⟩ | h
      · exact .inr ⟨r, List.mem_cons_self, rfl, hr⟩
      · exact key h

theorem processRuns_done {c : Config} {limit count : Nat} {log : Log} {runs : List Run} :
    ∀ x ∈ (processRuns c limit log count runs).done, ∃ r, (r = Run.new c ∨ r ∈ runs) ∧
      (x = r ∨ x = (r.process c log).1 ∧ (r.process c log).2.state = .running) := by
  intro x hx
  unfold processRuns at hx
  have hd := loop_done c log limit _ _ 0 rfl x hx
  have hp : ∀ r ∈ (prepare c limit count runs).1, r = Run.new c ∨ r ∈ runs := by
    intro r hr
    rcases prepare_spec c limit count runs with ⟨h, _⟩ | ⟨h, _, _⟩ | ⟨h, _, _⟩ <;> rw [h] at hr
    · exact .inr hr
    · exact .inr hr
    · dsimp only at hr
      split at hr
      · exact List.mem_cons.1 hr
      · rcases List.mem_append.1 hr with h | h
        · exact .inr h
        · exact .inl (by simpa using h)
  rcases hd with h | ⟨r, hr, h⟩
  · exact ⟨x, hp x h, .inl rfl⟩
  · exact ⟨r, hp r hr, .inr h⟩

end Verif.Wf
