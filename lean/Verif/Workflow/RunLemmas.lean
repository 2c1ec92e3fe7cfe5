import Verif.Workflow.Run

/-! Facts about traversals and runs. -/
namespace Verif.Wf

theorem scan_length (c : Config) (s : Sankeys) (log : Log) :
    ∀ (trs : List Transition) (ns : List Nat), (scan c s log trs ns).1.length = ns.length
  | [], ns => by simp [scan]
  | tr :: trs, [] => by simp [scan]
  | tr :: trs, n :: ns => by
    have ih := scan_length c s log trs ns
    unfold scan
    split
    · simp [ih]
    · split
      · split <;> simp [ih]
      · simp [ih]

theorem scan_quiet (c : Config) (s : Sankeys) (log : Log) :
    ∀ (trs : List Transition) (ns : List Nat), (scan c s log trs ns).2.matched = 0 →
      scan c s log trs ns = (ns, {})
  | [], ns => by simp [scan]
  | tr :: trs, [] => by simp [scan]
  | tr :: trs, n :: ns => by
    have ih := scan_quiet c s log trs ns
    unfold scan
    split
    · intro h
      rw [ih h]
    · split
      · split <;> intro h <;> simp at h
      · intro h
        rw [ih h]

theorem scan_still (c : Config) (s : Sankeys) (log : Log) :
    ∀ (trs : List Transition) (ns : List Nat), (scan c s log trs ns).2.followed = 0 →
      (scan c s log trs ns).2.outputs = [] ∧ (scan c s log trs ns).2.actions = []
  | [], ns => by simp [scan]
  | tr :: trs, [] => by simp [scan]
  | tr :: trs, n :: ns => by
    have ih := scan_still c s log trs ns
    unfold scan
    split
    · exact ih
    · split
      · split
        · intro h
          simp at h
        · exact ih
      · exact ih

theorem scan_followed (c : Config) (s : Sankeys) (log : Log) :
    ∀ (trs : List Transition) (ns : List Nat), (scan c s log trs ns).2.outputs.length ≤ (scan c s log trs ns).2.followed ∧
      (scan c s log trs ns).2.followed ≤ trs.length ∧
      (scan c s log trs ns).2.followed ≤ (scan c s log trs ns).2.matched
  | [], ns => by simp [scan]
  | tr :: trs, [] => by simp [scan]
  | tr :: trs, n :: ns => by
    have ih := scan_followed c s log trs ns
    unfold scan
    split
    · exact ⟨ih.1, Nat.le_succ_of_le ih.2.1, ih.2.2⟩
    · split
      · split
        · refine ⟨?_, ?_, ?_⟩
          · have : ∀ o : Option Traversal, o.toList.length ≤ 1 := by intro o; cases o <;> simp
            have h1 := this (Traversal.new c tr.target (trigger (extract log s tr.extractions) tr.actions).2)
            simp only [List.length_append]
            omega
          · simp only [List.length_cons]; omega
          · dsimp only; omega
        · refine ⟨ih.1, Nat.le_succ_of_le ih.2.1, ?_⟩
          dsimp only; omega
      · exact ⟨ih.1, Nat.le_succ_of_le ih.2.1, ih.2.2⟩

/-- What is known of a traversal that points into the configuration. -/
def Config.fits (c : Config) (t : Traversal) : Prop :=
  t.state < c.states.length ∧ t.counts.length = (c.transitions t.state).length

/-- Every transition leads to a state that exists. -/
def Config.ok (c : Config) : Prop :=
  c.states ≠ [] ∧ ∀ s ∈ c.states, ∀ tr ∈ s.transitions, tr.target < c.states.length

theorem transitions_lt {c : Config} {i : Nat} {tr : Transition} (h : tr ∈ c.transitions i) : i < c.states.length := by
  unfold Config.transitions at h
  split at h
  · rename_i s hs
    exact (List.getElem?_eq_some_iff.1 hs).1
  · simp at h

theorem Traversal.new_some {c : Config} {i : Nat} {s : Sankeys} {t : Traversal} (h : Traversal.new c i s = some t) :
    t.state = i ∧ t.counts = List.replicate (c.transitions i).length 0 ∧ t.sankeys = s ∧ c.transitions i ≠ [] := by
  unfold Traversal.new at h
  split at h
  · cases h
  · rename_i hne
    cases h
    exact ⟨rfl, rfl, rfl, by simpa using hne⟩

theorem Traversal.new_fits {c : Config} {i : Nat} {s : Sankeys} {t : Traversal} (h : Traversal.new c i s = some t) :
    c.fits t := by
  obtain ⟨h1, h2, _, h4⟩ := Traversal.new_some h
  refine ⟨?_, by rw [h1, h2]; simp⟩
  rw [h1]
  obtain ⟨tr, htr⟩ := List.exists_mem_of_ne_nil _ h4
  exact transitions_lt htr

theorem scan_outputs (c : Config) (s : Sankeys) (log : Log) :
    ∀ (trs : List Transition) (ns : List Nat), ∀ t ∈ (scan c s log trs ns).2.outputs,
      ∃ i s', Traversal.new c i s' = some t
  | [], ns => by simp [scan]
  | tr :: trs, [] => by simp [scan]
  | tr :: trs, n :: ns => by
    have ih := scan_outputs c s log trs ns
    unfold scan
    split
    · exact ih
    · split
      · split
        · intro t ht
          simp only [List.mem_append, Option.mem_toList] at ht
          rcases ht with ht | ht
          · exact ⟨_, _, ht⟩
          · exact ih t ht
        · exact ih
      · exact ih

/-! ### The loop of a run -/

theorem take_stopped (a : RunAcc) (c : Config) (now : Nat) (t : Traversal) (r : TravResult) :
    (a.take c now t r).stopped = true → a.stopped = true ∨ (c.overMatched (a.matched + r.matched) = true ∨
      c.overDuration a.first now = true) ∧ (a.take c now t r).done = t :: a.done := by
  unfold RunAcc.take
  split
  · rename_i h; intro _; exact .inr ⟨.inl h, rfl⟩
  · split
    · rename_i h; intro _; exact .inr ⟨.inr h, rfl⟩
    · intro h; exact .inl h

/-- The balance of a run that was not stopped. -/
theorem acc_balance (c : Config) (log : Log) (m : Nat) (f : Option Nat) : ∀ (ts : List Traversal),
    (ts.foldr (RunAcc.visit c log) { matched := m, first := f }).stopped = false →
      (ts.foldr (RunAcc.visit c log) { matched := m, first := f }).done.length +
          (ts.foldr (RunAcc.visit c log) { matched := m, first := f }).completed =
        ts.length + (ts.foldr (RunAcc.visit c log) { matched := m, first := f }).created
  | [] => by simp
  | t :: ts => by
    have ih := acc_balance c log m f ts
    simp only [List.foldr_cons]
    generalize ts.foldr (RunAcc.visit c log) { matched := m, first := f } = a at ih ⊢
    unfold RunAcc.visit
    split
    · rename_i h; intro h'; rw [show (({ a with done := t :: a.done } : RunAcc).stopped) = a.stopped from rfl, h] at h'; cases h'
    · rename_i hs
      have hs : a.stopped = false := by simpa using hs
      have ih := ih hs
      intro hns
      have hst := scan_still c t.sankeys log (c.transitions t.state) t.counts
      have hfo := scan_followed c t.sankeys log (c.transitions t.state) t.counts
      unfold RunAcc.take at hns ⊢
      unfold Traversal.process at hns ⊢
      generalize scan c t.sankeys log (c.transitions t.state) t.counts = x at hns hst hfo ⊢
      split at hns
      · cases hns
      · rename_i h1
        split at hns
        · cases hns
        · rename_i h2
          rw [if_neg h1, if_neg h2]
          dsimp only at hst hfo ⊢
          by_cases h0 : x.2.followed = 0
          · rw [if_pos h0, if_neg (by omega), if_neg (by omega)]
            simp only [List.length_cons]; omega
          · rw [if_neg h0]
            by_cases ho : x.2.outputs.isEmpty
            · have : x.2.outputs = [] := by simpa using ho
              rw [if_pos ⟨by omega, ho⟩, if_neg (by intro h; simp [ho] at h), this]
              simp only [List.nil_append, List.length_cons]; omega
            · have hlen : 0 < x.2.outputs.length := by
                cases hx : x.2.outputs with
                | nil => rw [hx] at ho; simp at ho
                | cons => simp
              rw [if_neg (by intro h; exact ho h.2), if_pos ⟨by omega, by simpa using ho⟩]
              simp only [List.length_append, List.length_cons]; omega

/-- Before a run is stopped its clock is either the one it had, or has just been set. -/
theorem acc_first (c : Config) (log : Log) (m : Nat) (f : Option Nat) : ∀ (ts : List Traversal),
    (ts.foldr (RunAcc.visit c log) { matched := m, first := f }).first = f ∨
      f = none ∧ (ts.foldr (RunAcc.visit c log) { matched := m, first := f }).first = some log.time
  | [] => by simp
  | t :: ts => by
    have ih := acc_first c log m f ts
    simp only [List.foldr_cons]
    generalize ts.foldr (RunAcc.visit c log) { matched := m, first := f } = a at ih ⊢
    unfold RunAcc.visit
    split
    · exact ih
    · unfold RunAcc.take
      split
      · exact ih
      · split
        · exact ih
        · dsimp only
          split
          · rename_i h
            simp only [Bool.and_eq_true] at h
            rcases ih with ih | ih
            · right
              refine ⟨?_, rfl⟩
              have := h.1
              rw [ih] at this
              simpa using this
            · exact .inr ⟨ih.1, rfl⟩
          · exact ih

/-- A run stopped by its duration is stopped at its first traversal: nothing was replaced. -/
theorem acc_stopped_duration (c : Config) (log : Log) (m : Nat) (f : Option Nat) (hm : c.maxMatched = none) :
    ∀ (ts : List Traversal), (ts.foldr (RunAcc.visit c log) { matched := m, first := f }).stopped = true →
      (ts.foldr (RunAcc.visit c log) { matched := m, first := f }).done.length = ts.length ∧
        c.overDuration f log.time = true
  | [] => by simp
  | t :: ts => by
    have ih := acc_stopped_duration c log m f hm ts
    have hf := acc_first c log m f ts
    have hover : c.overDuration f log.time = true → ts ≠ [] →
        (ts.foldr (RunAcc.visit c log) { matched := m, first := f }).stopped = true := by
      intro ho
      intro hne
      clear ih hf
      induction ts with
      | nil => exact absurd rfl hne
      | cons u us ihu =>
        simp only [List.foldr_cons]
        by_cases hus : us = []
        · subst hus
          simp only [List.foldr_nil]
          unfold RunAcc.visit RunAcc.take
          simp only [Bool.false_eq_true, if_false]
          split
          · rfl
          · rfl
        · have := ihu hus
          generalize us.foldr (RunAcc.visit c log) { matched := m, first := f } = a at this ⊢
          unfold RunAcc.visit
          rw [if_pos this]
          exact this
    simp only [List.foldr_cons]
    by_cases hts : ts = []
    · subst hts
      simp only [List.foldr_nil]
      unfold RunAcc.visit
      simp only [Bool.false_eq_true, if_false]
      intro h
      rcases take_stopped _ _ _ _ _ h with h' | ⟨h', hd⟩
      · cases h'
      · refine ⟨by rw [hd]; rfl, ?_⟩
        rcases h' with h' | h'
        · unfold Config.overMatched at h'; rw [hm] at h'; cases h'
        · exact h'
    · have hov := fun ho => hover ho hts
      generalize ts.foldr (RunAcc.visit c log) { matched := m, first := f } = a at ih hf hov ⊢
      unfold RunAcc.visit
      split
      · rename_i hs
        intro _
        obtain ⟨h1, h2⟩ := ih hs
        exact ⟨by simp [h1], h2⟩
      · rename_i hs
        intro h
        rcases take_stopped _ _ _ _ _ h with h' | ⟨h', hd⟩
        · exact absurd h' hs
        · exfalso
          rcases h' with h' | h'
          · unfold Config.overMatched at h'; rw [hm] at h'; cases h'
          · rcases hf with hf | hf
            · rw [hf] at h'
              exact hs (hov h')
            · rw [hf.2] at h'
              unfold Config.overDuration at h'
              split at h'
              · rename_i d f' hd' hf'
                cases hf'
                simp at h'
              · cases h'

theorem acc_stopped_single (c : Config) (log : Log) (r : Run) (h1 : r.traversals.length ≤ 1)
    (hs : (r.acc c log).stopped = true) : (r.acc c log).done.length = r.traversals.length := by
  unfold Run.acc at hs ⊢
  match hr : r.traversals with
  | [] => rfl
  | [t] =>
    rw [hr] at hs
    simp only [List.foldr_cons, List.foldr_nil] at hs ⊢
    unfold RunAcc.visit at hs ⊢
    simp only [Bool.false_eq_true, if_false] at hs ⊢
    rcases take_stopped _ _ _ _ _ hs with h | ⟨_, h⟩
    · cases h
    · rw [h]; rfl
  | _ :: _ :: _ => rw [hr] at h1; simp at h1

/-- A log that matches nothing changes nothing. -/
theorem acc_quiet (c : Config) (log : Log) (m : Nat) (f : Option Nat) : ∀ (ts : List Traversal),
    (ts.foldr (RunAcc.visit c log) { matched := m, first := f }).runMatched = 0 →
      (ts.foldr (RunAcc.visit c log) { matched := m, first := f }).done = ts ∧
      (ts.foldr (RunAcc.visit c log) { matched := m, first := f }).matched = m ∧
      (ts.foldr (RunAcc.visit c log) { matched := m, first := f }).first = f ∧
      (ts.foldr (RunAcc.visit c log) { matched := m, first := f }).actions = [] ∧
      (ts.foldr (RunAcc.visit c log) { matched := m, first := f }).created = 0 ∧
      (ts.foldr (RunAcc.visit c log) { matched := m, first := f }).completed = 0 ∧
      (ts.foldr (RunAcc.visit c log) { matched := m, first := f }).advanced = 0
  | [] => by simp
  | t :: ts => by
    have ih := acc_quiet c log m f ts
    simp only [List.foldr_cons]
    generalize ts.foldr (RunAcc.visit c log) { matched := m, first := f } = a at ih ⊢
    have hq := scan_quiet c t.sankeys log (c.transitions t.state) t.counts
    unfold RunAcc.visit
    split
    · intro h
      obtain ⟨h1, h2⟩ := ih h
      exact ⟨by simp [h1], h2⟩
    · intro h
      have hadd : a.runMatched + (t.process c log).2.matched = 0 := by
        rw [← h]
        unfold RunAcc.take
        split
        · rfl
        · split <;> rfl
      have ha : a.runMatched = 0 := by omega
      have ht : (t.process c log).2.matched = 0 := by omega
      have hp : t.process c log = (t, {}) := by
        have := hq ht
        unfold Traversal.process
        rw [this]
      obtain ⟨h1, h2, h3, h4, h5, h6, h7⟩ := ih ha
      rw [hp]
      unfold RunAcc.take
      split
      · exact ⟨by simp [h1], h2, h3, h4, h5, h6, h7⟩
      · split
        · exact ⟨by simp [h1], h2, h3, h4, h5, h6, h7⟩
        · exact ⟨by simp [h1], h2, by simpa using h3, by simp [h4], by simpa using h5, by simpa using h6, by simpa using h7⟩

theorem Run.process_quiet (c : Config) (log : Log) (r : Run) (h : (r.process c log).2.matched = 0) :
    (r.process c log).1 = r := by
  have hm : (r.acc c log).runMatched = 0 := by
    unfold Run.process RunAcc.result at h
    dsimp only at h
    split at h <;> exact h
  obtain ⟨h1, h2, h3, _⟩ := acc_quiet c log r.matched r.first r.traversals hm
  unfold Run.process RunAcc.run Run.acc
  dsimp only
  rw [h1, h2, h3]

/-- Every traversal of a run after a log is one it had, with other counters, or a new one. -/
theorem acc_from (c : Config) (log : Log) (m : Nat) (f : Option Nat) : ∀ (ts : List Traversal),
    ∀ t ∈ (ts.foldr (RunAcc.visit c log) { matched := m, first := f }).done,
      t ∈ ts ∨ (∃ u ∈ ts, t = (u.process c log).1) ∨ ∃ u ∈ ts, t ∈ (u.process c log).2.outputs
  | [] => by simp
  | t :: ts => by
    have ih := acc_from c log m f ts
    simp only [List.foldr_cons]
    generalize ts.foldr (RunAcc.visit c log) { matched := m, first := f } = a at ih ⊢
    have key : ∀ x ∈ a.done, x ∈ t :: ts ∨ (∃ u ∈ t :: ts, x = (u.process c log).1) ∨
        ∃ u ∈ t :: ts, x ∈ (u.process c log).2.outputs := by
      intro x hx
      rcases ih x hx with h | ⟨u, hu, h⟩ | ⟨u, hu, h⟩
      · exact .inl (List.mem_cons_of_mem _ h)
      · exact .inr (.inl ⟨u, List.mem_cons_of_mem _ hu, h⟩)
      · exact .inr (.inr ⟨u, List.mem_cons_of_mem _ hu, h⟩)
    have hself : (t.process c log).1 ∈ t :: ts ∨ (∃ u ∈ t :: ts, (t.process c log).1 = (u.process c log).1) ∨
        ∃ u ∈ t :: ts, (t.process c log).1 ∈ (u.process c log).2.outputs := .inr (.inl ⟨t, List.mem_cons_self, rfl⟩)
    unfold RunAcc.visit
    split
    · intro x hx
      rcases List.mem_cons.1 hx with rfl | hx
      · exact .inl List.mem_cons_self
      · exact key x hx
    · unfold RunAcc.take
      split
      · intro x hx
        rcases List.mem_cons.1 hx with rfl | hx
        · exact hself
        · exact key x hx
      · split
        · intro x hx
          rcases List.mem_cons.1 hx with rfl | hx
          · exact hself
          · exact key x hx
        · dsimp only
          intro x hx
          split at hx
          · rcases List.mem_cons.1 hx with rfl | hx
            · exact hself
            · exact key x hx
          · rcases List.mem_append.1 hx with hx | hx
            · exact .inr (.inr ⟨t, List.mem_cons_self, hx⟩)
            · exact key x hx

theorem acc_done (c : Config) (log : Log) (m : Nat) (f : Option Nat) (ts : List Traversal) :
    ∀ t ∈ (ts.foldr (RunAcc.visit c log) { matched := m, first := f }).done,
      t ∈ ts ∨ (∃ u ∈ ts, t = (u.process c log).1) ∨ ∃ i s, Traversal.new c i s = some t := by
  intro t ht
  rcases acc_from c log m f ts t ht with h | h | ⟨u, _, h⟩
  · exact .inl h
  · exact .inr (.inl h)
  · exact .inr (.inr (scan_outputs c u.sankeys log (c.transitions u.state) u.counts t h))

theorem Traversal.process_fits {c : Config} {log : Log} {t : Traversal} (h : c.fits t) : c.fits (t.process c log).1 :=
  ⟨h.1, (scan_length ..).trans h.2⟩

/-- All traversals of a run fit the configuration. -/
def Run.fits (c : Config) (r : Run) : Prop := ∀ t ∈ r.traversals, c.fits t

theorem Run.process_fits {c : Config} {log : Log} {r : Run} (h : r.fits c) : (r.process c log).1.fits c := by
  intro t ht
  rcases acc_done c log r.matched r.first r.traversals t ht with h' | ⟨u, hu, rfl⟩ | ⟨i, s, h'⟩
  · exact h t h'
  · exact Traversal.process_fits (h u hu)
  · exact Traversal.new_fits h'

theorem Run.new_fits (c : Config) : (Run.new c).fits c := by
  intro t ht
  have : Traversal.new c 0 [] = some t := by simpa [Run.new] using ht
  exact Traversal.new_fits this

end Verif.Wf
