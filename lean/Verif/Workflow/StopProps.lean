import Verif.Workflow.ExclusiveProps

/-!
C61: the limits of a run.  C62: indices into the configuration.
-/
namespace Verif.Wf

/-! ### C61: a run is stopped exactly when it is over one of its limits -/

theorem acc_stops (c : Config) (log : Log) (m : Nat) (f : Option Nat) : ∀ (ts : List Traversal),
    ((ts.foldr (RunAcc.visit c log) { matched := m, first := f }).stopped = true ↔
      ts ≠ [] ∧ ((∃ l, c.maxMatched = some l ∧ m + (ts.map fun t => (t.process c log).2.matched).sum > l) ∨
        ∃ d t0, c.duration = some d ∧ f = some t0 ∧ t0 + d < log.time)) ∧
    ((ts.foldr (RunAcc.visit c log) { matched := m, first := f }).stopped = false →
      ((ts.foldr (RunAcc.visit c log) { matched := m, first := f }).first =
        if f = none ∧ (ts.map fun t => (t.process c log).2.matched).sum > 0 then some log.time else f))
  | [] => by simp
  | t :: ts => by
    obtain ⟨ih, ih2⟩ := acc_stops c log m f ts
    have hm := (acc_spec c log m f ts)
    simp only [List.foldr_cons]
    generalize ts.foldr (RunAcc.visit c log) { matched := m, first := f } = a at ih ih2 hm ⊢
    unfold RunAcc.visit
    cases hs : a.stopped with
    | true =>
      simp only [if_true]
      obtain ⟨h1, h2⟩ := ih.1 hs
      refine ⟨⟨fun _ => ⟨by simp, ?_⟩, fun _ => trivial⟩, by intro h; cases h⟩
      rcases h2 with ⟨l, h3, h4⟩ | h2
      · refine .inl ⟨l, h3, ?_⟩
        simp only [List.map_cons, List.sum_cons]
        omega
      · exact .inr h2
    | false =>
      obtain ⟨_, _, hm, _⟩ := hm hs
      have hf := ih2 hs
      have hno : ¬ (ts ≠ [] ∧ ((∃ l, c.maxMatched = some l ∧ m + (ts.map fun t => (t.process c log).2.matched).sum > l) ∨
        ∃ d t0, c.duration = some d ∧ f = some t0 ∧ t0 + d < log.time)) := by
        intro h
        rw [ih.2 h] at hs
        cases hs
      simp only [Bool.false_eq_true, if_false, List.map_cons, List.sum_cons, ne_eq, reduceCtorEq, not_false_eq_true,
        true_and]
      have hov : c.overMatched (a.matched + (t.process c log).2.matched) = true ↔
          ∃ l, c.maxMatched = some l ∧
            m + ((t.process c log).2.matched + (ts.map fun t => (t.process c log).2.matched).sum) > l := by
        unfold Config.overMatched
        cases c.maxMatched with
        | none => simp
        | some l =>
          simp only [decide_eq_true_eq, Option.some.injEq, exists_eq_left']
          rw [hm]
          omega
      have hdur : c.overDuration a.first log.time = true ↔
          ∃ d t0, c.duration = some d ∧ f = some t0 ∧ t0 + d < log.time := by
        rw [hf]
        unfold Config.overDuration
        cases c.duration with
        | none => simp
        | some d =>
          cases f with
          | none =>
            by_cases hp : (ts.map fun t => (t.process c log).2.matched).sum > 0
            · simp [hp]
            · simp [hp]
          | some t0 =>
            simp only [reduceCtorEq, false_and, if_false, Bool.and_eq_true, decide_eq_true_eq, Option.some.injEq]
            constructor
            · intro h
              exact ⟨d, t0, rfl, rfl, by omega⟩
            · rintro ⟨_, _, rfl, rfl, h⟩
              omega
      unfold RunAcc.take
      split
      · rename_i h
        refine ⟨⟨fun _ => .inl (hov.1 h), fun _ => rfl⟩, by intro h; cases h⟩
      · rename_i h
        split
        · rename_i h'
          refine ⟨⟨fun _ => .inr (hdur.1 h'), fun _ => rfl⟩, by intro h; cases h⟩
        · rename_i h'
          refine ⟨⟨fun hh => absurd hh (by simp [hs]), ?_⟩, ?_⟩
          · rintro (hh | hh)
            · exact absurd (hov.2 hh) h
            · exact absurd (hdur.2 hh) h'
          · intro _
            dsimp only
            rw [hf]
            cases f with
            | none =>
              by_cases hp : (ts.map fun t => (t.process c log).2.matched).sum > 0
              · simp only [hp, and_self, if_true, Option.isNone_some, Bool.false_and, Bool.false_eq_true, if_false,
                  true_and]
                rw [if_pos (by omega)]
              · simp only [hp, and_false, if_false, Option.isNone_none, Bool.true_and, decide_eq_true_eq, true_and]
                by_cases hq : (t.process c log).2.matched > 0
                · rw [if_pos hq, if_pos (by omega)]
                · rw [if_neg hq, if_neg (by omega)]
            | some t0 => simp

theorem stopped_iff (c : Config) (log : Log) (r : Run) :
    (r.process c log).2.state = .stopped ↔ (r.acc c log).stopped = true := by
  unfold Run.process RunAcc.result
  dsimp only
  cases (r.acc c log).stopped with
  | true => simp
  | false =>
    simp only [Bool.false_eq_true, if_false, iff_false]
    split <;> simp

/-- How many matchers, over all states the run is in, accept the log. -/
def Run.hits (c : Config) (r : Run) (log : Log) : Nat :=
  (r.traversals.map fun t => ((c.transitions t.state).filter fun tr => match tr.rule with
    | .logMatch m _ => decide (m ∈ log.hits) | .timeout _ => false).length).sum

theorem scan_hits (c : Config) (s : Sankeys) (log : Log) : ∀ (trs : List Transition) (ns : List Nat),
    ns.length = trs.length → (scan c s log trs ns).2.matched = (trs.filter fun tr => match tr.rule with
      | .logMatch m _ => decide (m ∈ log.hits) | .timeout _ => false).length
  | [], ns, _ => by simp [scan]
  | tr :: trs, [], h => by simp at h
  | tr :: trs, n :: ns, h => by
    have ih := scan_hits c s log trs ns (by simpa using h)
    unfold scan
    rw [List.filter_cons]
    cases hr : tr.rule with
    | timeout ms => simpa using ih
    | logMatch m k =>
      dsimp only
      by_cases hm : m ∈ log.hits
      · rw [if_pos hm]
        split <;> simp [hm, ih]
      · rw [if_neg hm]
        simpa [hm] using ih

theorem hits_eq {c : Config} {r : Run} {log : Log} (hf : r.fits c) :
    (r.traversals.map fun t => (t.process c log).2.matched).sum = r.hits c log := by
  unfold Run.hits
  congr 1
  apply List.map_congr_left
  intro t ht
  exact scan_hits c t.sankeys log _ _ (hf t ht).2

/-- C61.  A run is stopped exactly when, with this log, more logs matched than its configuration allows, or the log is
later than the configured duration after the first log that matched. -/
theorem C61_stopped (c : Config) (log : Log) (r : Run) (hf : r.fits c) (hne : r.traversals ≠ []) :
    (r.process c log).2.state = .stopped ↔
      (∃ l, c.maxMatched = some l ∧ r.matched + r.hits c log > l) ∨
        ∃ d t0, c.duration = some d ∧ r.first = some t0 ∧ t0 + d < log.time := by
  rw [stopped_iff]
  have := (acc_stops c log r.matched r.first r.traversals).1
  rw [hits_eq hf] at this
  unfold Run.acc
  rw [this]
  simp [hne]

/-- C61.  A run that goes on has counted every match, and remembers the time of the first log that matched. -/
theorem C61_counted (c : Config) (log : Log) (r : Run) (hf : r.fits c) (h : (r.process c log).2.state ≠ .stopped) :
    (r.process c log).1.matched = r.matched + r.hits c log ∧
      (r.process c log).1.first = (if r.first = none ∧ r.hits c log > 0 then some log.time else r.first) := by
  have hst : (r.acc c log).stopped = false := by
    cases hh : (r.acc c log).stopped with
    | false => rfl
    | true => exact absurd ((stopped_iff c log r).2 hh) h
  refine ⟨by rw [(Run.process_spec h).2.2.1, hits_eq hf], ?_⟩
  have := (acc_stops c log r.matched r.first r.traversals).2 hst
  rw [hits_eq hf] at this
  exact this

/-! Over histories: every run respects the limit of matched logs of its configuration. -/

theorem process_limit {c : Config} {log : Log} {r : Run} (h : (r.process c log).2.state = .running) (l : Nat)
    (hl : c.maxMatched = some l) : (r.process c log).1.matched ≤ l := by
  have hst : (r.acc c log).stopped = false := by
    cases hh : (r.acc c log).stopped with
    | false => rfl
    | true =>
      have := (stopped_iff c log r).2 hh
      rw [h] at this
      cases this
  have h3 := (Run.process_spec (c := c) (log := log) (r := r) (by rw [h]; decide))
  have := (acc_stops c log r.matched r.first r.traversals).1
  have hne : r.traversals ≠ [] := by
    intro he
    have h1 := h3.1
    rw [he] at h1
    have : (r.process c log).2.state = .completed := by
      unfold Run.process RunAcc.result at h1 ⊢
      dsimp only at h1 ⊢
      rw [hst]
      have : (r.acc c log).done = [] := by simpa [RunAcc.run] using h1
      simp [this]
    rw [h] at this
    cases this
  rw [h3.2.2.1]
  apply Nat.le_of_not_lt
  intro hgt
  have := this.2 ⟨hne, .inl ⟨l, hl, hgt⟩⟩
  rw [show (r.acc c log).stopped = true from this] at hst
  cases hst

theorem keeps_limit {cs : List Config} (hk : ∀ c ∈ cs, ∀ c' ∈ cs, c.id = c'.id → c.maxMatched = c'.maxMatched) :
    Keeps cs (fun c runs => ∀ l, c.maxMatched = some l → ∀ r ∈ runs, r.matched ≤ l)
      (fun w => ∀ c ∈ cs, c.id = w.id → ∀ l, c.maxMatched = some l → ∀ r ∈ w.runs, r.matched ≤ l) where
  empty := by intro c _ l _ r hr; cases hr
  step := by
    intro c _ limit log count runs h l hl x hx
    obtain ⟨r, hr, hx⟩ := processRuns_done x hx
    rcases hx with rfl | ⟨rfl, hrun⟩
    · rcases hr with rfl | hr
      · exact Nat.zero_le _
      · exact h l hl x hr
    · exact process_limit hrun l hl
  save := by
    intro c hc runs h c' hc' hid l hl r hr
    exact h l (by rw [← hk c' hc' c hc hid]; exact hl) r (List.mem_filter.1 hr).1
  load := by
    intro c hc runs k h l hl r hr
    exact h c hc rfl l hl r (List.mem_of_mem_take hr)

/-- C61.  Over all histories in which the limit of matched logs does not change under an identifier: no run has matched
more logs than its configuration allows. -/
theorem C61_limit (ops : List Op)
    (hk : ∀ c ∈ histConfigs ops, ∀ c' ∈ histConfigs ops, c.id = c'.id → c.maxMatched = c'.maxMatched)
    (i : Nat) (w : Workflow) (c : Config) (hw : (({} : Engine).run ops).workflows[i]? = some w)
    (hc : (({} : Engine).run ops).configs[i]? = some c) (l : Nat) (hl : c.maxMatched = some l) :
    ∀ r ∈ w.runs, r.matched ≤ l :=
  ((Good.run (keeps_limit hk) ops Good.init mem_histConfigs).1.get i w c hw hc).2.2 l hl

/-- Stopped runs are gone, and stopped by either limit. -/
example : ((({} : Engine).run [Ex.start 9 [{ Ex.single with maxMatched := some 2 }], Ex.log [1], Ex.log [2],
    Ex.log [2]]).workflows.map (·.runs)) = [[⟨[⟨0, [0], []⟩], 0, none⟩]] := by decide +kernel
example : ((⟨[⟨1, [0], []⟩], 1, some 5⟩ : Run).process { Ex.single with duration := some 3 } { session := "s", time := 9, hits := [] }).2.state =
    .stopped := by decide +kernel
example : ((⟨[⟨1, [0], []⟩], 1, some 5⟩ : Run).process { Ex.single with duration := some 3 } { session := "s", time := 8, hits := [] }).2.state =
    .running := by decide +kernel

/-! ### C62: every index into the configuration is within bounds -/

theorem lastIdx_lt {k : String} : ∀ {l : List String} {i : Nat}, lastIdx k l = some i → i < l.length
  | e :: l, i, h => by
    unfold lastIdx at h
    split at h
    · rename_i j hj
      cases h
      have := lastIdx_lt hj
      simpa using this
    · split at h
      · cases h; simp
      · cases h

theorem lastIdx_get {k : String} : ∀ {l : List String} {i : Nat}, lastIdx k l = some i → l[i]? = some k
  | e :: l, i, h => by
    unfold lastIdx at h
    split at h
    · rename_i j hj
      cases h
      simpa using lastIdx_get hj
    · split at h
      · rename_i hk; cases h; simp [hk]
      · cases h

theorem mapOpt_spec {α β : Type} {f : α → Option β} : ∀ {l : List α} {r : List β}, mapOpt f l = some r →
    r.length = l.length ∧ ∀ (i : Nat) (b : β), r[i]? = some b → ∃ a, l[i]? = some a ∧ f a = some b
  | [], r, h => by
    cases h
    exact ⟨rfl, by intro i b h; simp at h⟩
  | a :: l, r, h => by
    unfold mapOpt at h
    split at h
    · rename_i b rs hb hrs
      cases h
      obtain ⟨h1, h2⟩ := mapOpt_spec hrs
      refine ⟨by simp [h1], ?_⟩
      intro i x hi
      cases i with
      | zero =>
        simp only [List.getElem?_cons_zero, Option.some.injEq] at hi
        subst hi
        exact ⟨a, by simp, hb⟩
      | succ i => simpa using h2 i x (by simpa using hi)
    · cases h

theorem Config.new_spec {p : PConfig} {c : Config} (h : Config.new p = some c) :
    p.states ≠ [] ∧ mapOpt p.state p.states = some c.states ∧ c.id = p.id ∧ p.exclusive = some c.exclusive := by
  unfold Config.new at h
  split at h
  · cases h
  · rename_i hne
    split at h
    · rename_i s x d m hs hx hd hm
      cases h
      exact ⟨by simpa using hne, hs, rfl, hx⟩
    · cases h

/-- C62.  A configuration that is accepted has a first state, and every transition of it leads to a state of it: the one
with the name the message gives. -/
theorem C62_accepted (p : PConfig) (c : Config) (h : Config.new p = some c) :
    c.states ≠ [] ∧ c.states.length = p.states.length ∧
    ∀ (i j : Nat) (s : State) (tr : Transition), c.states[i]? = some s → s.transitions[j]? = some tr →
      tr.target < c.states.length ∧
      ∃ ps pt, p.states[i]? = some ps ∧ ps.transitions[j]? = some pt ∧
        (p.states.map (·.id))[tr.target]? = some pt.target ∧ pt.rule = some tr.rule ∧
        pt.actions = tr.actions.map some := by
  obtain ⟨h1, h2, _⟩ := Config.new_spec h
  obtain ⟨h3, h4⟩ := mapOpt_spec h2
  refine ⟨?_, h3, ?_⟩
  · intro he
    rw [he] at h3
    exact h1 (List.length_eq_zero_iff.1 h3.symm)
  · intro i j s tr hs htr
    obtain ⟨ps, hps, hst⟩ := h4 i s hs
    unfold PConfig.state at hst
    split at hst
    · rename_i t ht
      cases hst
      obtain ⟨_, h5⟩ := mapOpt_spec ht
      obtain ⟨pt, hpt, htt⟩ := h5 j tr htr
      unfold PConfig.transition at htt
      split at htt
      · rename_i k r a e hi hr ha he
        cases htt
        dsimp only
        unfold PConfig.index at hi
        refine ⟨?_, ps, pt, hps, hpt, lastIdx_get hi, hr, ?_⟩
        · have := lastIdx_lt hi
          rw [List.length_map] at this
          omega
        · obtain ⟨g1, g2⟩ := mapOpt_spec ha
          apply List.ext_getElem?
          intro n
          rw [List.getElem?_map]
          cases hn : a[n]? with
          | none =>
            have := List.getElem?_eq_none_iff.1 hn
            simp only [Option.map_none]
            exact List.getElem?_eq_none_iff.2 (by omega)
          | some x =>
            obtain ⟨y, hy1, hy2⟩ := g2 n x hn
            rw [hy1]
            simp only [Option.map_some]
            rw [hy2]
      · cases htt
    · cases hst

theorem C62_ok {p : PConfig} {c : Config} (h : Config.new p = some c) : c.ok := by
  obtain ⟨h1, _, h3⟩ := C62_accepted p c h
  refine ⟨h1, ?_⟩
  intro s hs tr htr
  obtain ⟨i, hi⟩ := List.mem_iff_getElem?.1 hs
  obtain ⟨j, hj⟩ := List.mem_iff_getElem?.1 htr
  exact (h3 i j s tr hi hj).1

theorem fits_congr {c c' : Config} (h : c.states = c'.states) {r : Run} (hf : r.fits c) : r.fits c' := by
  intro t ht
  obtain ⟨h1, h2⟩ := hf t ht
  unfold Config.fits Config.transitions at *
  rw [← h]
  exact ⟨h1, h2⟩

theorem keeps_fits {cs : List Config} (hk : ∀ c ∈ cs, ∀ c' ∈ cs, c.id = c'.id → c.states = c'.states) :
    Keeps cs (fun c runs => ∀ r ∈ runs, r.fits c) (fun w => ∀ c ∈ cs, c.id = w.id → ∀ r ∈ w.runs, r.fits c) where
  empty := by intro c _ r hr; cases hr
  step := by
    intro c _ limit log count runs h x hx
    obtain ⟨r, hr, hx⟩ := processRuns_done x hx
    have hf : r.fits c := by
      rcases hr with rfl | hr
      · exact Run.new_fits c
      · exact h r hr
    rcases hx with rfl | ⟨rfl, _⟩
    · exact hf
    · exact Run.process_fits hf
  save := by
    intro c hc runs h c' hc' hid r hr
    exact fits_congr (hk c hc c' hc' hid.symm) (h r (List.mem_filter.1 hr).1)
  load := by
    intro c hc runs k h r hr
    exact h c hc rfl r (List.mem_of_mem_take hr)

/-- C62.  Over all histories in which the states under an identifier do not change: every traversal is in a state of its
configuration and has one counter for each transition of that state, so no index is out of bounds. -/
theorem C62_in_bounds_partial (ops : List Op)
    (hk : ∀ c ∈ histConfigs ops, ∀ c' ∈ histConfigs ops, c.id = c'.id → c.states = c'.states)
    (i : Nat) (w : Workflow) (c : Config) (hw : (({} : Engine).run ops).workflows[i]? = some w)
    (hc : (({} : Engine).run ops).configs[i]? = some c) :
    ∀ r ∈ w.runs, ∀ t ∈ r.traversals, ∃ s, c.states[t.state]? = some s ∧ t.counts.length = s.transitions.length := by
  intro r hr t ht
  obtain ⟨h1, h2⟩ := (((Good.run (keeps_fits hk) ops Good.init mem_histConfigs).1.get i w c hw hc).2.2) r hr t ht
  refine ⟨c.states[t.state], List.getElem?_eq_getElem h1, ?_⟩
  unfold Config.transitions at h2
  rw [List.getElem?_eq_getElem h1] at h2
  exact h2

/-- Without the hypothesis: a stored run is taken up under a configuration with the same identifier and fewer states, and
its traversal points beyond them (the code would panic at workflow.rs:829). -/
theorem C62_changed_violated :
    let short : Config := { Ex.growing with states := [⟨"0", [⟨0, .logMatch 7 1, [], []⟩]⟩] }
    let e := ({} : Engine).run [Ex.start 9 [Ex.growing], Ex.log [7], Op.persist true .ok, Ex.start 9 [short]]
    (e.configs.map fun c => c.states.length) = [1] ∧
      (e.workflows.map fun w => w.runs.map fun r => r.traversals.map (·.state)) = [[[1]]] := by decide +kernel

example : ∃ c, Config.new ⟨"w", [⟨"a", [⟨"b", some (.logMatch 1 1), [some (Ex.act "m")], []⟩]⟩, ⟨"b", []⟩], some true, none,
    some 3⟩ = some c ∧ (c.transitions 0).map (·.target) = [1] :=
  ⟨_, rfl, by decide⟩

end Verif.Wf
