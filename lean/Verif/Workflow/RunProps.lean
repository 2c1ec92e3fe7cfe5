import Verif.Workflow.EngineLemmas

/-!
C35: a transition is followed exactly at its configured number of matching logs.

The statements speak of the logs a traversal was shown since it entered its state, and count those its matchers accept;
the counters the code keeps do not occur in them.
-/
namespace Verif.Wf

/-- The matcher of the transition accepts the log. -/
def Transition.hit (tr : Transition) (log : Log) : Bool :=
  match tr.rule with
  | .logMatch m _ => m ∈ log.hits
  | .timeout _ => false

/-- How many of the logs the matcher of the transition accepts. -/
def Transition.accepted (tr : Transition) (seen : List Log) : Nat := (seen.filter tr.hit).length

/-- With this log, the last of those seen, the transition has its configured number of matching logs. -/
def Transition.due (tr : Transition) (seen : List Log) (log : Log) : Bool :=
  match tr.rule with
  | .logMatch m k => m ∈ log.hits && ((seen ++ [log]).filter fun l => m ∈ l.hits).length = k
  | .timeout _ => false

/-- The traversal was shown these logs since it entered its state, and stayed. -/
def Shown (c : Config) (seen : List Log) (t : Traversal) : Prop :=
  t.counts = (c.transitions t.state).map (·.accepted seen)

theorem Shown.new {c : Config} {i : Nat} {s : Sankeys} {t : Traversal} (h : Traversal.new c i s = some t) :
    Shown c [] t := by
  obtain ⟨h1, h2, _, _⟩ := Traversal.new_some h
  unfold Shown
  rw [h1, h2]
  simp [Transition.accepted, List.map_const']

theorem accepted_snoc (tr : Transition) (seen : List Log) (log : Log) :
    tr.accepted (seen ++ [log]) = tr.accepted seen + if tr.hit log then 1 else 0 := by
  unfold Transition.accepted
  rw [List.filter_append, List.length_append, List.filter_cons, List.filter_nil]
  cases tr.hit log <;> simp

theorem due_iff (tr : Transition) (seen : List Log) (log : Log) : tr.due seen log =
    match tr.rule with
    | .logMatch m k => m ∈ log.hits && tr.accepted seen + 1 = k
    | .timeout _ => false := by
  unfold Transition.due Transition.accepted Transition.hit
  cases hr : tr.rule with
  | timeout ms => rfl
  | logMatch m k =>
    simp only
    by_cases h : m ∈ log.hits
    · simp [h, List.filter_append]
    · simp [h]

/-- `scan`, in terms of the logs seen. -/
theorem scan_spec (c : Config) (s : Sankeys) (log : Log) (seen : List Log) : ∀ (trs : List Transition),
    scan c s log trs (trs.map (·.accepted seen)) =
      (trs.map (·.accepted (seen ++ [log])),
        { outputs := (trs.filter (·.due seen log)).filterMap fun tr =>
            Traversal.new c tr.target (trigger (extract log s tr.extractions) tr.actions).2
          actions := (trs.filter (·.due seen log)).flatMap fun tr =>
            (trigger (extract log s tr.extractions) tr.actions).1
          matched := (trs.filter (·.hit log)).length
          followed := (trs.filter (·.due seen log)).length })
  | [] => by simp [scan]
  | tr :: trs => by
    have ih := scan_spec c s log seen trs
    have hd := due_iff tr seen log
    have ha := accepted_snoc tr seen log
    simp only [List.map_cons]
    unfold scan
    rw [ih]
    dsimp only
    cases hr : tr.rule with
    | timeout ms =>
      have hh : tr.hit log = false := by simp [Transition.hit, hr]
      rw [hr] at hd
      dsimp only at hd ⊢
      simp [hd, ha, hh]
    | logMatch m k =>
      have hh : tr.hit log = decide (m ∈ log.hits) := by simp [Transition.hit, hr]
      rw [hr] at hd
      dsimp only at hd ⊢
      by_cases h : m ∈ log.hits
      · rw [if_pos h]
        by_cases hk : tr.accepted seen + 1 = k
        · rw [if_pos hk]
          simp only [h, hk, decide_true, Bool.and_self] at hd hh
          simp only [List.filter_cons, hd, hh, if_true, ha, List.filterMap_cons, List.flatMap_cons, List.length_cons]
          cases Traversal.new c tr.target (trigger (extract log s tr.extractions) tr.actions).2 <;> simp
        · rw [if_neg hk]
          simp only [h, hk, decide_true, decide_false, Bool.and_false] at hd hh
          simp [hd, hh, ha]
      · rw [if_neg h]
        simp only [h, decide_false, Bool.false_and] at hd hh
        simp [hd, hh, ha]

/-- C35, one traversal: whatever logs it was shown since it entered its state, the next log makes it follow exactly the
transitions that have now their configured number of matching logs; it triggers the actions of exactly these, in the
order of the configuration; and it leads to exactly their targets, of which final states need no traversal. -/
theorem C35_traversal (c : Config) (log : Log) (t : Traversal) (seen : List Log) (h : Shown c seen t) :
    (t.process c log).2.followed = ((c.transitions t.state).filter (·.due seen log)).length ∧
    (t.process c log).2.actions = ((c.transitions t.state).filter (·.due seen log)).flatMap (fun tr =>
      (trigger (extract log t.sankeys tr.extractions) tr.actions).1) ∧
    (t.process c log).2.outputs.map (·.state) = (((c.transitions t.state).filter (·.due seen log)).map (·.target)).filter
      (fun i => !(c.transitions i).isEmpty) ∧
    (t.process c log).2.matched = ((c.transitions t.state).filter (·.hit log)).length ∧
    (∀ u ∈ (t.process c log).2.outputs, Shown c [] u) ∧
    Shown c (seen ++ [log]) (t.process c log).1 := by
  have hs := scan_spec c t.sankeys log seen (c.transitions t.state)
  unfold Shown at h
  rw [← h] at hs
  unfold Traversal.process
  refine ⟨by rw [hs], by rw [hs], ?_, by rw [hs], ?_, ?_⟩
  · rw [hs]
    dsimp only
    induction (c.transitions t.state).filter (·.due seen log) with
    | nil => rfl
    | cons tr l ih =>
      simp only [List.filterMap_cons, List.map_cons, List.filter_cons]
      unfold Traversal.new
      by_cases he : (c.transitions tr.target).isEmpty = true
      · simp only [he, if_true, Bool.not_true, Bool.false_eq_true, if_false]
        exact ih
      · have : (c.transitions tr.target).isEmpty = false := by simpa using he
        simp only [this, Bool.not_false, if_true, Bool.false_eq_true, if_false, List.map_cons]
        exact congrArg _ ih
  · intro u hu
    rw [hs] at hu
    obtain ⟨tr, _, htr⟩ := List.mem_filterMap.1 hu
    exact Shown.new htr
  · unfold Shown
    rw [hs]

/-- A rule with the count zero is never followed. -/
theorem C35_zero (tr : Transition) (seen : List Log) (log : Log) (m : Nat) (h : tr.rule = .logMatch m 0) :
    tr.due seen log = false := by
  rw [due_iff, h]
  simp

/-- Actions other than sankey diagrams are triggered as configured, in order and with nothing in between that is not
configured. -/
theorem C35_actions (s : Sankeys) : ∀ (l : List Action),
    (trigger s l).1.filterMap (fun t => match t with
      | .flush a => some (Action.flush a) | .metric a => some (.metric a) | .screenshot i => some (.screenshot i)
      | .sankey _ _ => none) =
    l.filter (fun a => match a with | .sankey _ => false | _ => true)
  | [] => rfl
  | .flush a :: l => by simpa [trigger] using C35_actions s l
  | .metric a :: l => by simpa [trigger] using C35_actions s l
  | .screenshot a :: l => by simpa [trigger] using C35_actions s l
  | .sankey a :: l => by
    simp only [trigger]
    split
    · simpa using C35_actions s l
    · simpa using C35_actions _ l

/-! ### Runs -/

/-- What becomes of a traversal: it stays, with one more log seen, or is replaced. -/
def Traversal.next (c : Config) (log : Log) (t : Traversal) : List Traversal :=
  if (t.process c log).2.followed = 0 then [(t.process c log).1] else (t.process c log).2.outputs

theorem acc_spec (c : Config) (log : Log) (m : Nat) (f : Option Nat) : ∀ (ts : List Traversal),
    (ts.foldr (RunAcc.visit c log) { matched := m, first := f }).stopped = false →
      (ts.foldr (RunAcc.visit c log) { matched := m, first := f }).done = ts.flatMap (·.next c log) ∧
      (ts.foldr (RunAcc.visit c log) { matched := m, first := f }).actions =
        ts.reverse.flatMap (fun t => (t.process c log).2.actions) ∧
      (ts.foldr (RunAcc.visit c log) { matched := m, first := f }).matched =
        m + (ts.map fun t => (t.process c log).2.matched).sum ∧
      (ts.foldr (RunAcc.visit c log) { matched := m, first := f }).runMatched =
        (ts.map fun t => (t.process c log).2.matched).sum
  | [] => by simp
  | t :: ts => by
    have ih := acc_spec c log m f ts
    simp only [List.foldr_cons]
    generalize ts.foldr (RunAcc.visit c log) { matched := m, first := f } = a at ih ⊢
    intro hst
    unfold RunAcc.visit at hst ⊢
    by_cases ha : a.stopped = true
    · rw [if_pos ha] at hst
      exact absurd ha (by simpa using hst)
    rw [if_neg ha] at hst ⊢
    obtain ⟨h1, h2, h3, h4⟩ := ih (by simpa using ha)
    unfold RunAcc.take at hst ⊢
    split
    · rename_i hc; rw [if_pos hc] at hst; cases hst
    · rename_i hc
      rw [if_neg hc] at hst
      split
      · rename_i hd; rw [if_pos hd] at hst; cases hst
      · dsimp only
        refine ⟨?_, ?_, ?_, ?_⟩
        · simp only [List.flatMap_cons, h1]
          unfold Traversal.next
          split <;> rfl
        · rw [h2]; simp
        · rw [h3]; simp only [List.map_cons, List.sum_cons]; omega
        · rw [h4]; simp only [List.map_cons, List.sum_cons]; omega

theorem Run.process_spec {c : Config} {log : Log} {r : Run} (h : (r.process c log).2.state ≠ .stopped) :
    (r.process c log).1.traversals = r.traversals.flatMap (·.next c log) ∧
      (r.process c log).2.actions = r.traversals.reverse.flatMap (fun t => (t.process c log).2.actions) ∧
      (r.process c log).1.matched = r.matched + (r.traversals.map fun t => (t.process c log).2.matched).sum ∧
      (r.process c log).2.matched = (r.traversals.map fun t => (t.process c log).2.matched).sum := by
  have hst : (r.acc c log).stopped = false := by
    cases hh : (r.acc c log).stopped with
    | false => rfl
    | true =>
      unfold Run.process RunAcc.result at h
      dsimp only at h
      rw [hh] at h
      simp at h
  obtain ⟨h1, h2, h3, h4⟩ := acc_spec c log r.matched r.first r.traversals hst
  unfold Run.process RunAcc.result RunAcc.run
  dsimp only
  rw [hst]
  exact ⟨h1, h2, h3, h4⟩

/-- The run after these logs, if it was still running after each. -/
def Run.after (c : Config) (r : Run) : List Log → Option Run
  | [] => some r
  | log :: logs => if (r.process c log).2.state = .running then (r.process c log).1.after c logs else none

theorem Run.after_snoc (c : Config) (log : Log) : ∀ (logs : List Log) (r : Run), r.after c (logs ++ [log]) =
    (r.after c logs).bind fun x => if (x.process c log).2.state = .running then some (x.process c log).1 else none
  | [], r => rfl
  | l :: logs, r => by
    simp only [List.cons_append, Run.after]
    split
    · exact Run.after_snoc c log logs _
    · rfl

/-- The traversal was shown the logs `seen` since it entered its state, and no transition was due at any of them. -/
def Waiting (c : Config) (seen : List Log) (t : Traversal) : Prop :=
  Shown c seen t ∧ ∀ tr ∈ c.transitions t.state, ∀ a log b, seen = a ++ log :: b → tr.due a log = false

theorem Waiting.new {c : Config} {i : Nat} {s : Sankeys} {t : Traversal} (h : Traversal.new c i s = some t) :
    Waiting c [] t := ⟨Shown.new h, by intro tr _ a log b h; simp at h⟩

theorem Waiting.snoc {c : Config} {seen : List Log} {t : Traversal} {log : Log} (h : Waiting c seen t)
    (h0 : (t.process c log).2.followed = 0) : Waiting c (seen ++ [log]) (t.process c log).1 := by
  obtain ⟨h1, _, _, _, _, h6⟩ := C35_traversal c log t seen h.1
  refine ⟨h6, ?_⟩
  intro tr htr a l b hs
  have htr' : tr ∈ c.transitions t.state := htr
  rcases List.eq_nil_or_concat b with rfl | ⟨b', x, rfl⟩
  · have : a = seen ∧ l = log := by
      have := List.append_inj' hs (by simp)
      exact ⟨this.1.symm, by simpa using this.2.symm⟩
    obtain ⟨rfl, rfl⟩ := this
    rw [h0] at h1
    have := List.length_eq_zero_iff.1 h1.symm
    rw [List.filter_eq_nil_iff] at this
    simpa using this tr htr'
  · have : seen = a ++ l :: b' := by
      have hs' : seen ++ [log] = (a ++ l :: b') ++ [x] := by simpa using hs
      exact (List.append_inj' hs' (by simp)).1
    exact h.2 tr htr' a l b' this

/-- C35, a run: after any logs, each of its traversals has waited in its state for the logs of some last part of these,
its transitions being due at none of them; its counters are the numbers of matching logs.  With `C35_next`, this
determines what every further log does. -/
theorem C35_history (c : Config) : ∀ (logs : List Log) (r : Run), (Run.new c).after c logs = some r →
    ∀ t ∈ r.traversals, ∃ before seen, logs = before ++ seen ∧ Waiting c seen t := by
  intro logs
  induction hn : logs.length generalizing logs with
  | zero =>
    have := List.length_eq_zero_iff.1 hn
    subst this
    intro r hr t ht
    cases hr
    have : Traversal.new c 0 [] = some t := by simpa [Run.new] using ht
    exact ⟨[], [], rfl, Waiting.new this⟩
  | succ n ih =>
    rcases List.eq_nil_or_concat logs with rfl | ⟨pre, log, rfl⟩
    · cases hn
    rw [List.concat_eq_append] at hn ⊢
    intro r hr t ht
    rw [Run.after_snoc] at hr
    cases hp : (Run.new c).after c pre with
    | none => rw [hp] at hr; cases hr
    | some x =>
      rw [hp] at hr
      simp only [Option.bind_some] at hr
      split at hr
      · rename_i hrun
        cases hr
        obtain ⟨h1, _⟩ := Run.process_spec (c := c) (log := log) (r := x) (by rw [hrun]; decide)
        rw [h1] at ht
        obtain ⟨u, hu, htu⟩ := List.mem_flatMap.1 ht
        obtain ⟨before, seen, hb, hw⟩ := ih pre (by simpa using hn) x hp u hu
        unfold Traversal.next at htu
        split at htu
        · rename_i h0
          obtain rfl := List.mem_singleton.1 htu
          exact ⟨before, seen ++ [log], by rw [hb, List.append_assoc], hw.snoc h0⟩
        · unfold Traversal.process at htu
          obtain ⟨i, s, hnew⟩ := scan_outputs c _ log _ _ t htu
          exact ⟨pre ++ [log], [], by simp, Waiting.new hnew⟩
      · cases hr

/-- C35, one more log for a run that is not stopped by its limits: each traversal, going from the last to the first,
triggers the actions of exactly the transitions that are due; those with no transition due stay, the others are replaced
by one traversal for each target that is not final. -/
theorem C35_next (c : Config) (logs : List Log) (r : Run) (log : Log) (_ : (Run.new c).after c logs = some r)
    (hs : (r.process c log).2.state ≠ .stopped) :
    (r.process c log).2.actions = r.traversals.reverse.flatMap (fun t => (t.process c log).2.actions) ∧
    (r.process c log).1.traversals = r.traversals.flatMap (fun t =>
      if (t.process c log).2.followed = 0 then [(t.process c log).1] else (t.process c log).2.outputs) :=
  ⟨(Run.process_spec hs).2.1, (Run.process_spec hs).1⟩

/-- A run that its limits stop triggers nothing. -/
theorem C35_stopped (c : Config) (r : Run) (log : Log) (h : (r.process c log).2.state = .stopped) :
    (r.process c log).2.actions = [] := by
  unfold Run.process RunAcc.result at h ⊢
  dsimp only at h ⊢
  split
  · rfl
  · rename_i hn
    rw [if_neg hn] at h
    dsimp only at h
    split at h <;> cases h

/-! ### Workflows with parallel execution -/

theorem settle_actions (a : WfAcc) (limit : Nat) (run : Run) (r : RunResult) :
    (a.settle limit run r).actions = a.actions ∧ (a.settle limit run r).broken = a.broken := by
  unfold WfAcc.settle
  split
  · exact ⟨rfl, rfl⟩
  · split <;> exact ⟨rfl, rfl⟩

theorem loop_actions (c : Config) (log : Log) (limit : Nat) (init : WfAcc) (hx : c.exclusive = false)
    (h1 : init.actions = []) (h2 : init.broken = false) : ∀ (rs : List Run) (i : Nat),
    (loop c log limit init i rs).actions = rs.reverse.flatMap (fun r => (r.process c log).2.actions) ∧
      (loop c log limit init i rs).broken = false
  | [], _ => ⟨h1, h2⟩
  | r :: rs, i => by
    obtain ⟨e1, e2⟩ := loop_actions c log limit init hx h1 h2 rs (i + 1)
    unfold loop
    generalize loop c log limit init (i + 1) rs = a at e1 e2 ⊢
    unfold WfAcc.visit
    rw [e2, hx]
    simp only [Bool.false_eq_true, if_false]
    obtain ⟨f1, f2⟩ := settle_actions (a.incorporate (r.process c log).2) limit (r.process c log).1 (r.process c log).2
    rw [f1, f2]
    refine ⟨?_, e2⟩
    unfold WfAcc.incorporate
    dsimp only
    rw [e1]
    simp

/-- C35, a workflow whose runs are parallel: every run is shown the log, and the actions triggered are those of its
runs. -/
theorem C35_parallel (c : Config) (limit count : Nat) (log : Log) (runs : List Run) (hx : c.exclusive = false) :
    (processRuns c limit log count runs).actions =
      (prepare c limit count runs).1.reverse.flatMap (fun r => (r.process c log).2.actions) :=
  (loop_actions c log limit _ hx rfl rfl _ 0).1

/-! ### An example -/

namespace Ex
def act (i : String) : Action := .metric ⟨i, [], .fixed 1, false⟩
/-- two logs for matcher 1 lead to state 1, one for matcher 2 to the final state -/
def counting : Config :=
  { id := "n", exclusive := false,
    states := [
      ⟨"0", [⟨1, .logMatch 1 2, [act "a"], []⟩, ⟨2, .logMatch 2 1, [act "b"], []⟩]⟩,
      ⟨"1", [⟨2, .logMatch 1 1, [act "c"], []⟩]⟩,
      ⟨"2", []⟩] }
def l (hits : List Nat) : Log := { session := "s", time := 0, hits := hits }
end Ex

/-- A run that waits in its initial state after two logs, one of them matching; then both transitions are due at once. -/
example : (Run.new Ex.counting).after Ex.counting [Ex.l [1], Ex.l []] =
    some ⟨[⟨0, [1, 0], []⟩], 1, some 0⟩ := by decide +kernel
example : (((⟨[⟨0, [1, 0], []⟩], 1, some 0⟩ : Run)).process Ex.counting (Ex.l [1, 2])).2.actions =
    [.metric ⟨"a", [], .fixed 1, false⟩, .metric ⟨"b", [], .fixed 1, false⟩] := by decide +kernel
example : Shown Ex.counting [Ex.l [1], Ex.l []] ⟨0, [1, 0], []⟩ := by
  unfold Shown
  decide +kernel

end Verif.Wf
