import Verif.Workflow.RunProps
import Verif.Workflow.LimitProps

/-!
C34: exclusive workflows.

`C34_one_active`: over all histories, an exclusive workflow has at most two runs, and at most one of them is past its
start.  `C34_active_first`, `C34_reset`, `C34_idle`: which of the two is shown a log, and what becomes of the other.

The state on disk is found again by the identifier of the workflow alone.  If the configuration under an identifier
changes from parallel to exclusive execution between two processes, the stored runs of the parallel workflow become runs
of an exclusive one (`C34_kind_violated`); `Kinds` excludes this.
-/
namespace Verif.Wf

/-- Under one identifier, all configurations are exclusive or all are parallel. -/
def Kinds (cs : List Config) : Prop := ∀ c ∈ cs, ∀ c' ∈ cs, c.id = c'.id → c.exclusive = c'.exclusive

/-- The run has left its initial state, or a matcher of that state has accepted a log. -/
def Run.past (r : Run) : Prop := ∃ t ∈ r.traversals, t.state ≠ 0 ∨ ∃ n ∈ t.counts, n ≠ 0

theorem initial_iff (r : Run) : r.initial = true ↔ ¬ r.past := by
  simp [Run.initial, Traversal.initial, Run.past]

/-- One run, or a run that waits in front of another. -/
def Lead (runs : List Run) : Prop := runs.length ≤ 1 ∨ ∃ a b, runs = [a, b] ∧ a.initial = true

theorem prepare_lead {c : Config} {limit count : Nat} {runs : List Run} (hx : c.exclusive = true) (h : Lead runs) :
    Lead (prepare c limit count runs).1 := by
  rcases prepare_spec c limit count runs with ⟨h1, _⟩ | ⟨h1, _, _⟩ | ⟨h1, h2, _⟩ <;> rw [h1]
  · exact h
  · exact h
  · rw [hx]
    simp only [if_true]
    rcases h with h | ⟨a, b, rfl, ha⟩
    · match runs, h with
      | [], _ => exact .inl (by simp)
      | [r], _ =>
        refine .inr ⟨_, _, rfl, ?_⟩
        rw [initial_iff]
        rintro ⟨t, ht, h⟩
        have : Traversal.new c 0 [] = some t := by simpa [Run.new] using ht
        obtain ⟨e1, e2, _, _⟩ := Traversal.new_some this
        rcases h with h | ⟨n, hn, h⟩
        · exact h e1
        · rw [e2] at hn
          exact h (List.eq_of_mem_replicate hn)
    · simp [needsNew, ha] at h2

/-- The loop body for the last run of an exclusive workflow. -/
theorem loop_last (c : Config) (log : Log) (limit : Nat) (init : WfAcc) (hx : c.exclusive = true) (hb : init.broken = false)
    (i : Nat) (r : Run) : loop c log limit init i [r] =
      ((init.incorporate (r.process c log).2).settle limit (r.process c log).1 (r.process c log).2).exclusive c log i := by
  unfold loop loop WfAcc.visit
  rw [hb, hx]
  simp

theorem settle_cases (a : WfAcc) (limit : Nat) (run : Run) (r : RunResult) :
    (a.settle limit run r).done = a.done ∨
    (a.settle limit run r).done = run :: a.done ∧ r.state = .running ∧ a.count ≤ limit ∧
      ((a.settle limit run r).progress = (a.progress || decide (r.matched > 0))) := by
  unfold WfAcc.settle
  split
  · exact .inl rfl
  · rename_i h1
    split
    · exact .inl rfl
    · rename_i h2
      refine .inr ⟨rfl, ?_, by omega, rfl⟩
      cases hr : r.state <;> simp_all

theorem settle_broken (a : WfAcc) (limit : Nat) (run : Run) (r : RunResult) :
    (a.settle limit run r).broken = a.broken := (settle_actions a limit run r).2

theorem processRuns_lead {c : Config} {limit count : Nat} {log : Log} {runs : List Run} (hx : c.exclusive = true)
    (h : Lead runs) : Lead (processRuns c limit log count runs).done := by
  have hp := prepare_lead (limit := limit) (count := count) hx h
  unfold processRuns
  generalize (prepare c limit count runs).1 = l at hp ⊢
  generalize hinit : ({ count := (prepare c limit count runs).2.1, stats := (prepare c limit count runs).2.2 } : WfAcc)
    = init
  have hd : init.done = [] := by rw [← hinit]
  have hb : init.broken = false := by rw [← hinit]
  have hpr : init.progress = false := by rw [← hinit]
  have key : ∀ (i : Nat) (r : Run), (loop c log limit init i [r]).done.length ≤ 1 := by
    intro i r
    rw [loop_last c log limit init hx hb]
    generalize hs : (init.incorporate (r.process c log).2).settle limit (r.process c log).1 (r.process c log).2 = s
    have hl : s.done.length ≤ 1 := by
      rcases settle_cases (init.incorporate (r.process c log).2) limit (r.process c log).1 (r.process c log).2 with h | ⟨h, _⟩
        <;> rw [hs] at h <;> rw [h] <;> simp [WfAcc.incorporate, hd]
    unfold WfAcc.exclusive
    split
    · split
      · split
        · dsimp only
          have := List.length_eraseIdx_le s.done 1
          omega
        · exact hl
      · exact hl
    · exact hl
  rcases hp with hp | ⟨a, b, rfl, ha⟩
  · match l, hp with
    | [], _ => left; simp [loop, hd]
    | [r], _ => exact .inl (key 0 r)
  · have hk := key 1 b
    unfold loop
    generalize hm : loop c log limit init (0 + 1) [b] = m at *
    have hk : m.done.length ≤ 1 := by simpa using hk
    unfold WfAcc.visit
    split
    · dsimp only
      match hmd : m.done, hk with
      | [], _ => exact .inl (by simp)
      | [x], _ => exact .inr ⟨a, x, rfl, ha⟩
    · rename_i hmb
      have hmp : m.done ≠ [] → m.progress = false := by
        intro hne
        have h2 := hm
        simp only [Nat.zero_add] at h2
        rw [loop_last c log limit init hx hb] at h2
        generalize hs : (init.incorporate (b.process c log).2).settle limit (b.process c log).1 (b.process c log).2 = s at h2
        cases hp : m.progress with
        | false => rfl
        | true =>
          have hsp : s.progress = true ∧ s.done = m.done := by
            unfold WfAcc.exclusive at h2
            split at h2
            · simp only [Nat.one_ne_zero, if_false] at h2
              subst h2
              exact ⟨hp, rfl⟩
            · subst h2
              exact ⟨hp, rfl⟩
          unfold WfAcc.exclusive at h2
          have : 1 + s.done.length > 1 ∧ s.progress = true := by
            refine ⟨?_, hsp.1⟩
            rw [hsp.2]
            have := List.length_pos_iff.2 hne
            omega
          rw [if_pos this] at h2
          simp only [Nat.one_ne_zero, if_false] at h2
          subst h2
          exact absurd rfl hmb
      rcases settle_cases (m.incorporate (a.process c log).2) limit (a.process c log).1 (a.process c log).2 with h | ⟨h, h1, h2, h3⟩
      · left
        unfold WfAcc.exclusive
        split
        · split
          · split
            · dsimp only
              have := List.length_eraseIdx_le
                ((m.incorporate (a.process c log).2).settle limit (a.process c log).1 (a.process c log).2).done 1
              have h' : ((m.incorporate (a.process c log).2).settle limit (a.process c log).1 (a.process c log).2).done.length ≤ 1 := by
                rw [h]; exact hk
              omega
            · rw [h]; exact hk
          · dsimp only; rw [h]; exact hk
        · rw [h]; exact hk
      · generalize hs : (m.incorporate (a.process c log).2).settle limit (a.process c log).1 (a.process c log).2 = s at h h3 ⊢
        have h : s.done = (a.process c log).1 :: m.done := h
        have h3 : s.progress = (m.progress || decide ((a.process c log).2.matched > 0)) := h3
        unfold WfAcc.exclusive
        simp only [Nat.zero_add, if_true]
        match hmd : m.done, hk with
        | [], _ =>
          rw [h, hmd]
          simp only [List.length_singleton, gt_iff_lt, Nat.lt_irrefl, false_and, if_false]
          rw [h, hmd]
          exact .inl (by simp)
        | [x], _ =>
          rw [hmp (by rw [hmd]; simp)] at h3
          rw [h, hmd]
          by_cases hz : (a.process c log).2.matched > 0
          · simp only [hz, decide_true, Bool.or_true] at h3
            rw [if_pos ⟨by simp, h3⟩]
            left
            simp
          · simp only [hz, decide_false, Bool.or_false] at h3
            rw [if_neg (by rw [h3]; simp)]
            rw [h, hmd]
            right
            refine ⟨_, _, rfl, ?_⟩
            rw [Run.process_quiet c log a (by omega)]
            exact ha

theorem keeps_lead {cs : List Config} (hk : Kinds cs) : Keeps cs (fun c runs => c.exclusive = true → Lead runs)
    (fun w => ∀ c ∈ cs, c.id = w.id → c.exclusive = true → w.runs.length ≤ 1) where
  empty := by intro c _ _; exact .inl (by simp)
  step := by
    intro c _ limit log count runs h hx
    exact processRuns_lead hx (h hx)
  save := by
    intro c hc runs h c' hc' hid hx
    rcases h (by rw [← hk c' hc' c hc hid]; exact hx) with h | ⟨a, b, rfl, ha⟩
    · exact Nat.le_trans (List.length_filter_le _ _) h
    · simp only [List.filter_cons, ha, Bool.not_true, Bool.false_eq_true, if_false]
      split <;> simp
  load := by
    intro c hc runs k h hx
    have := h c hc rfl hx
    have : runs.length ≤ 1 := this
    exact .inl (by simp only [List.length_take]; omega)

/-- C34.  Over all histories: an exclusive workflow has at most two runs; if it has two, the first is in its initial
state and no matcher has accepted a log for it; so at most one run is past its start. -/
theorem C34_one_active (ops : List Op) (hk : Kinds (histConfigs ops)) (i : Nat) (w : Workflow) (c : Config)
    (hw : (({} : Engine).run ops).workflows[i]? = some w) (hc : (({} : Engine).run ops).configs[i]? = some c)
    (hx : c.exclusive = true) :
    w.runs.length ≤ 2 ∧
      ∀ (j k : Nat) (r r' : Run), w.runs[j]? = some r → w.runs[k]? = some r' → r.past → r'.past → j = k := by
  have h := (((Good.run (keeps_lead hk) ops Good.init mem_histConfigs).1.get i w c hw hc).2.2) hx
  rcases h with h | ⟨a, b, hab, ha⟩
  · refine ⟨by omega, ?_⟩
    intro j k r r' hj hk' _ _
    have := (List.getElem?_eq_some_iff.1 hj).1
    have := (List.getElem?_eq_some_iff.1 hk').1
    omega
  · rw [hab]
    refine ⟨by simp, ?_⟩
    intro j k r r' hj hk' hr hr'
    have h0 : ∀ (n : Nat) (x : Run), ([a, b] : List Run)[n]? = some x → x.past → n = 1 := by
      intro n x hn hp
      match n, hn with
      | 0, hn =>
        simp only [List.getElem?_cons_zero, Option.some.injEq] at hn
        subst hn
        exact absurd hp ((initial_iff _).1 ha)
      | 1, _ => rfl
      | n + 2, hn => simp at hn
    rw [h0 j r hj hr, h0 k r' hk' hr']

/-! ### Which run is shown a log -/

/-- A matcher of a state the run is in accepts the log. -/
def Run.accepts (c : Config) (r : Run) (log : Log) : Prop :=
  ∃ t ∈ r.traversals, ∃ tr ∈ c.transitions t.state, ∃ m k, tr.rule = .logMatch m k ∧ m ∈ log.hits

theorem scan_matched (c : Config) (s : Sankeys) (log : Log) : ∀ (trs : List Transition) (ns : List Nat),
    ns.length = trs.length →
      ((scan c s log trs ns).2.matched > 0 ↔ ∃ tr ∈ trs, ∃ m k, tr.rule = .logMatch m k ∧ m ∈ log.hits)
  | [], ns, _ => by simp [scan]
  | tr :: trs, [], h => by simp at h
  | tr :: trs, n :: ns, h => by
    have ih := scan_matched c s log trs ns (by simpa using h)
    unfold scan
    split
    · rename_i ms hr
      rw [ih]
      constructor
      · rintro ⟨t, ht, h⟩
        exact ⟨t, List.mem_cons_of_mem _ ht, h⟩
      · rintro ⟨t, ht, m, k, h1, h2⟩
        rcases List.mem_cons.1 ht with rfl | ht
        · rw [hr] at h1; cases h1
        · exact ⟨t, ht, m, k, h1, h2⟩
    · rename_i m k hr
      split
      · rename_i hm
        have : ∃ tr' ∈ tr :: trs, ∃ m k, tr'.rule = .logMatch m k ∧ m ∈ log.hits :=
          ⟨tr, List.mem_cons_self, m, k, hr, hm⟩
        split
        · simp only [this, iff_true]; omega
        · simp only [this, iff_true]; omega
      · rename_i hm
        dsimp only
        rw [ih]
        constructor
        · rintro ⟨t, ht, h⟩
          exact ⟨t, List.mem_cons_of_mem _ ht, h⟩
        · rintro ⟨t, ht, m', k', h1, h2⟩
          rcases List.mem_cons.1 ht with rfl | ht
          · rw [hr] at h1; cases h1; exact absurd h2 hm
          · exact ⟨t, ht, m', k', h1, h2⟩

theorem acc_matched_zero (c : Config) (log : Log) (m : Nat) (f : Option Nat) : ∀ (ts : List Traversal),
    (∀ t ∈ ts, (t.process c log).2.matched = 0) →
      (ts.foldr (RunAcc.visit c log) { matched := m, first := f }).runMatched = 0
  | [], _ => rfl
  | t :: ts, h => by
    have ih := acc_matched_zero c log m f ts fun x hx => h x (List.mem_cons_of_mem _ hx)
    have h0 := h t List.mem_cons_self
    simp only [List.foldr_cons]
    generalize ts.foldr (RunAcc.visit c log) { matched := m, first := f } = a at ih ⊢
    unfold RunAcc.visit
    split
    · exact ih
    · unfold RunAcc.take
      split
      · dsimp only; omega
      · split <;> dsimp only <;> omega

theorem sum_pos : ∀ (l : List Nat) (n : Nat), n ∈ l → n > 0 → l.sum > 0
  | a :: l, n, h, hn => by
    rcases List.mem_cons.1 h with rfl | h
    · simp only [List.sum_cons]; omega
    · have := sum_pos l n h hn
      simp only [List.sum_cons]; omega

theorem process_accepts {c : Config} {r : Run} {log : Log} (hf : r.fits c) (h : r.accepts c log)
    (hs : (r.process c log).2.state ≠ .stopped) : (r.process c log).2.matched > 0 := by
  obtain ⟨t, ht, htr⟩ := h
  rw [(Run.process_spec hs).2.2.2]
  refine sum_pos _ _ (List.mem_map.2 ⟨t, ht, rfl⟩) ?_
  exact (scan_matched c t.sankeys log _ _ (hf t ht).2).2 htr

theorem process_deaf {c : Config} {r : Run} {log : Log} (hf : r.fits c) (h : ¬ r.accepts c log) :
    (r.process c log).2.matched = 0 := by
  have : (r.acc c log).runMatched = 0 := by
    refine acc_matched_zero c log _ _ _ ?_
    intro t ht
    have := scan_matched c t.sankeys log (c.transitions t.state) t.counts (hf t ht).2
    cases hm : (t.process c log).2.matched with
    | zero => rfl
    | succ n =>
      refine absurd ⟨t, ht, this.1 ?_⟩ h
      show (t.process c log).2.matched > 0
      omega
  unfold Run.process RunAcc.result
  dsimp only
  split <;> exact this

theorem process_quiet_result {c : Config} {r : Run} {log : Log} (h : (r.process c log).2.matched = 0) :
    (r.process c log).2.created = 0 ∧ (r.process c log).2.completed = 0 := by
  have hm : (r.acc c log).runMatched = 0 := by
    unfold Run.process RunAcc.result at h
    dsimp only at h
    split at h <;> exact h
  obtain ⟨_, _, _, _, h5, h6, _⟩ := acc_quiet c log r.matched r.first r.traversals hm
  unfold Run.process RunAcc.result
  dsimp only
  split
  · exact ⟨rfl, rfl⟩
  · exact ⟨h5, h6⟩

theorem prepare_two {c : Config} {limit count : Nat} {a b : Run} (ha : a.initial = true) :
    prepare c limit count [a, b] = ([a, b], count, {}) := by
  unfold prepare needsNew
  simp [ha]

theorem settle_running {a : WfAcc} {limit : Nat} {run : Run} {r : RunResult} (h : r.state = .running)
    (hl : a.count ≤ limit) : (a.settle limit run r).done = run :: a.done ∧
      (a.settle limit run r).progress = (a.progress || decide (r.matched > 0)) ∧
      (a.settle limit run r).count = a.count := by
  unfold WfAcc.settle
  rw [if_neg (by rw [h]; simp; omega), if_neg (by rw [h]; simp)]
  exact ⟨rfl, rfl, rfl⟩

/-- C34.  The run in progress is shown the log first.  If it accepts the log and goes on, the waiting run is not shown the
log: it stays as it is, and triggers nothing. -/
theorem C34_active_first (c : Config) (limit count : Nat) (log : Log) (a b : Run) (hx : c.exclusive = true)
    (ha : ¬ a.past) (hf : b.fits c) (hb : b.accepts c log) (hr : (b.process c log).2.state = .running)
    (hl : count + (b.process c log).2.created ≤ limit) :
    (processRuns c limit log count [a, b]).done = [a, (b.process c log).1] ∧
      (processRuns c limit log count [a, b]).actions = (b.process c log).2.actions := by
  have hm := process_accepts hf hb (by rw [hr]; decide)
  unfold processRuns
  rw [prepare_two ((initial_iff a).2 ha)]
  unfold loop
  simp only [Nat.zero_add]
  rw [loop_last c log limit _ hx rfl]
  generalize hi : (({ count := count, stats := {} } : WfAcc).incorporate (b.process c log).2) = i
  have hic : i.count ≤ limit := by
    rw [← hi]; unfold WfAcc.incorporate; dsimp only; omega
  have hid : i.done = [] := by rw [← hi]; rfl
  have hia : i.actions = (b.process c log).2.actions := by rw [← hi]; simp [WfAcc.incorporate]
  obtain ⟨h1, h2, _⟩ := settle_running (run := (b.process c log).1) hr hic
  have h3 := (settle_actions i limit (b.process c log).1 (b.process c log).2).1
  generalize i.settle limit (b.process c log).1 (b.process c log).2 = s at h1 h2 h3 ⊢
  have hcond : 1 + s.done.length > 1 ∧ s.progress = true := by
    refine ⟨by rw [h1]; simp, ?_⟩
    rw [h2]
    simp [hm]
  unfold WfAcc.exclusive
  rw [if_pos hcond]
  simp only [Nat.one_ne_zero, if_false]
  unfold WfAcc.visit
  simp only [if_true]
  exact ⟨by rw [h1, hid], by rw [h3, hia]⟩

/-- C34.  If the run in progress does not accept the log and the waiting run does, the waiting run takes its place: the
progress is reset. -/
theorem C34_reset (c : Config) (limit count : Nat) (log : Log) (a b : Run) (hx : c.exclusive = true)
    (ha : ¬ a.past) (hfa : a.fits c) (hfb : b.fits c) (hb : ¬ b.accepts c log)
    (hrb : (b.process c log).2.state = .running) (hacc : a.accepts c log)
    (hra : (a.process c log).2.state = .running) (hl : count + (a.process c log).2.created ≤ limit) :
    (processRuns c limit log count [a, b]).done = [(a.process c log).1] ∧
      (processRuns c limit log count [a, b]).actions = (b.process c log).2.actions ++ (a.process c log).2.actions := by
  have hmb := process_deaf hfb hb
  have hma := process_accepts hfa hacc (by rw [hra]; decide)
  obtain ⟨hb5, hb6⟩ := process_quiet_result hmb
  unfold processRuns
  rw [prepare_two ((initial_iff a).2 ha)]
  unfold loop
  simp only [Nat.zero_add]
  rw [loop_last c log limit _ hx rfl]
  generalize hi : (({ count := count, stats := {} } : WfAcc).incorporate (b.process c log).2) = i
  have hic : i.count = count := by
    rw [← hi]; unfold WfAcc.incorporate; dsimp only; omega
  have hid : i.done = [] := by rw [← hi]; rfl
  have hip : i.progress = false := by rw [← hi]; rfl
  have hib : i.broken = false := by rw [← hi]; rfl
  have hia : i.actions = (b.process c log).2.actions := by rw [← hi]; simp [WfAcc.incorporate]
  obtain ⟨h1, h2, h2c⟩ := settle_running (run := (b.process c log).1) hrb (show i.count ≤ limit by omega)
  obtain ⟨h3, h4⟩ := settle_actions i limit (b.process c log).1 (b.process c log).2
  generalize i.settle limit (b.process c log).1 (b.process c log).2 = s at h1 h2 h2c h3 h4 ⊢
  have hsp : s.progress = false := by rw [h2, hip, hmb]; rfl
  have he : s.exclusive c log 1 = s := by
    unfold WfAcc.exclusive
    rw [if_neg (by rw [hsp]; simp)]
  rw [he]
  unfold WfAcc.visit
  rw [h4, hib, hx]
  simp only [Bool.false_eq_true, if_false, if_true]
  generalize hj : s.incorporate (a.process c log).2 = j
  have hjc : j.count ≤ limit := by
    rw [← hj]; unfold WfAcc.incorporate; dsimp only; omega
  have hjd : j.done = [(b.process c log).1] := by rw [← hj]; show s.done = _; rw [h1, hid]
  have hja : j.actions = (b.process c log).2.actions ++ (a.process c log).2.actions := by
    rw [← hj]; show s.actions ++ _ = _; rw [h3, hia]
  obtain ⟨k1, k2, _⟩ := settle_running (run := (a.process c log).1) hra hjc
  have k3 := (settle_actions j limit (a.process c log).1 (a.process c log).2).1
  generalize j.settle limit (a.process c log).1 (a.process c log).2 = u at k1 k2 k3 ⊢
  have hup : u.progress = true := by rw [k2]; simp [hma]
  unfold WfAcc.exclusive
  rw [if_pos ⟨by rw [k1, hjd]; simp, hup⟩]
  rw [k1, hjd]
  simp only [if_true, List.getElem?_cons_succ, List.getElem?_cons_zero]
  exact ⟨rfl, by rw [k3, hja]⟩

/-- C34.  A log that neither of the two accepts, and that does not come too late for the run in progress, changes
neither. -/
theorem C34_idle (c : Config) (limit count : Nat) (log : Log) (a b : Run) (hx : c.exclusive = true)
    (ha : ¬ a.past) (hfa : a.fits c) (hfb : b.fits c) (hb : ¬ b.accepts c log)
    (hrb : (b.process c log).2.state = .running) (hacc : ¬ a.accepts c log)
    (hra : (a.process c log).2.state = .running) (hl : count ≤ limit) :
    (processRuns c limit log count [a, b]).done = [a, b] := by
  have hmb := process_deaf hfb hb
  have hma := process_deaf hfa hacc
  obtain ⟨hb5, hb6⟩ := process_quiet_result hmb
  obtain ⟨ha5, ha6⟩ := process_quiet_result hma
  unfold processRuns
  rw [prepare_two ((initial_iff a).2 ha)]
  unfold loop
  simp only [Nat.zero_add]
  rw [loop_last c log limit _ hx rfl]
  generalize hi : (({ count := count, stats := {} } : WfAcc).incorporate (b.process c log).2) = i
  have hic : i.count = count := by
    rw [← hi]; unfold WfAcc.incorporate; dsimp only; omega
  have hid : i.done = [] := by rw [← hi]; rfl
  have hip : i.progress = false := by rw [← hi]; rfl
  have hib : i.broken = false := by rw [← hi]; rfl
  obtain ⟨h1, h2, h2c⟩ := settle_running (run := (b.process c log).1) hrb (show i.count ≤ limit by omega)
  obtain ⟨h3, h4⟩ := settle_actions i limit (b.process c log).1 (b.process c log).2
  generalize i.settle limit (b.process c log).1 (b.process c log).2 = s at h1 h2 h2c h3 h4 ⊢
  have hsp : s.progress = false := by rw [h2, hip, hmb]; rfl
  have he : s.exclusive c log 1 = s := by
    unfold WfAcc.exclusive
    rw [if_neg (by rw [hsp]; simp)]
  rw [he]
  unfold WfAcc.visit
  rw [h4, hib, hx]
  simp only [Bool.false_eq_true, if_false, if_true]
  generalize hj : s.incorporate (a.process c log).2 = j
  have hjc : j.count ≤ limit := by
    rw [← hj]; unfold WfAcc.incorporate; dsimp only; omega
  have hjd : j.done = [(b.process c log).1] := by rw [← hj]; show s.done = _; rw [h1, hid]
  have hjp : j.progress = false := by rw [← hj]; exact hsp
  obtain ⟨k1, k2, _⟩ := settle_running (run := (a.process c log).1) hra hjc
  generalize j.settle limit (a.process c log).1 (a.process c log).2 = u at k1 k2 ⊢
  have hup : u.progress = false := by rw [k2, hjp, hma]; rfl
  unfold WfAcc.exclusive
  rw [if_neg (by rw [hup]; simp), k1, hjd, Run.process_quiet c log a hma, Run.process_quiet c log b hmb]

/-! ### Examples -/

namespace Ex
/-- an exclusive workflow: matcher 1, then twice matcher 2, then the end -/
def single : Config :=
  { id := "x", exclusive := true,
    states := [⟨"0", [⟨1, .logMatch 1 1, [act "a"], []⟩]⟩, ⟨"1", [⟨2, .logMatch 2 2, [act "b"], []⟩]⟩, ⟨"2", []⟩] }
/-- the same with a short cut, matcher 3 -/
def short : Config :=
  { id := "x", exclusive := true,
    states := [⟨"0", [⟨1, .logMatch 1 1, [], []⟩, ⟨2, .logMatch 3 1, [act "d"], []⟩]⟩,
      ⟨"1", [⟨2, .logMatch 2 1, [act "b"], []⟩]⟩, ⟨"2", []⟩] }
def active : Run := ⟨[⟨1, [0], []⟩], 1, some 0⟩
end Ex

example : Kinds (histConfigs [Ex.start 9 [Ex.single, Ex.growing], Ex.log [1], Ex.log [2], Ex.log [7]]) := by
  intro c hc c' hc' hid
  have key : ∀ x, x ∈ histConfigs [Ex.start 9 [Ex.single, Ex.growing], Ex.log [1], Ex.log [2], Ex.log [7]] →
      x = Ex.single ∨ x = Ex.growing := by
    intro x hx
    simpa [histConfigs, Op.configs, Ex.start, Ex.log] using hx
  rcases key c hc with rfl | rfl <;> rcases key c' hc' with rfl | rfl <;> first | rfl | (exact absurd hid (by decide))

/-- Two runs, the second past its start. -/
example : ((({} : Engine).run [Ex.start 9 [Ex.single], Ex.log [1], Ex.log [2]]).workflows.map (·.runs)) =
    [[⟨[⟨0, [0], []⟩], 0, none⟩, ⟨[⟨1, [1], []⟩], 2, some 0⟩]] := by decide +kernel
/-- The case of `C34_reset`, and that of `C34_active_first`. -/
example : (processRuns Ex.single 9 (Ex.l [1]) 2 [⟨[⟨0, [0], []⟩], 0, none⟩, ⟨[⟨1, [1], []⟩], 2, some 0⟩]).done =
    [⟨[⟨1, [0], []⟩], 1, some 0⟩] := by decide +kernel
example : (processRuns Ex.single 9 (Ex.l [1, 2]) 2 [⟨[⟨0, [0], []⟩], 0, none⟩, ⟨[⟨1, [0], []⟩], 1, some 0⟩]).done =
    [⟨[⟨0, [0], []⟩], 0, none⟩, ⟨[⟨1, [1], []⟩], 2, some 0⟩] := by decide +kernel
example : (⟨[⟨1, [0], []⟩], 1, some 0⟩ : Run).accepts Ex.single (Ex.l [1, 2]) :=
  ⟨⟨1, [0], []⟩, by simp, ⟨2, .logMatch 2 2, [Ex.act "b"], []⟩, by simp [Ex.single, Config.transitions], 2, 2, rfl,
    by simp [Ex.l]⟩

/-- A waiting run that matches and is done at once does not reset the run in progress; nor does a log that completes the
run in progress spare the waiting run. -/
theorem C34_done_at_once :
    (processRuns Ex.short 9 (Ex.l [3]) 2 [Run.new Ex.short, Ex.active]).done = [Ex.active] ∧
      (processRuns Ex.short 9 (Ex.l [3, 2]) 2 [Run.new Ex.short, Ex.active]).actions =
        [.metric ⟨"b", [], .fixed 1, false⟩, .metric ⟨"d", [], .fixed 1, false⟩] := by decide +kernel

/-- Without `Kinds`: three runs of a parallel workflow, stored, and loaded under an exclusive configuration with the same
identifier. -/
theorem C34_kind_violated :
    let ops := [Ex.start 9 [Ex.growing], Ex.log [7], Ex.log [7], Ex.log [7], Op.persist true .ok,
      Ex.start 9 [{ Ex.growing with exclusive := true }]]
    ((({} : Engine).run ops).workflows.map fun w => (w.runs.length, w.runs.map fun r => r.traversals.map (·.state))) =
      [(3, [[1], [1], [1]])] := by decide +kernel

end Verif.Wf
