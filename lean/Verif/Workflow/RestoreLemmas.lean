import Verif.Workflow.SessionProps

/-! What the progress of a workflow looks like, and why leaving out the waiting run when it is stored loses nothing: for
workflows in which no transition leads back to the first state. -/
namespace Verif.Wf

/-- No transition leads back to the initial state. -/
def Config.noReturn (c : Config) : Prop := ∀ i, ∀ tr ∈ c.transitions i, tr.target ≠ 0

/-- A run that has done something, in all its traversals. -/
def Run.busy (r : Run) : Prop := r.traversals ≠ [] ∧ ∀ t ∈ r.traversals, t.initial = false

theorem Run.busy.not_initial {r : Run} (h : r.busy) : r.initial = false := by
  obtain ⟨h1, h2⟩ := h
  unfold Run.initial
  match ht : r.traversals with
  | [] => exact absurd ht h1
  | t :: ts =>
    rw [ht] at h2
    simp [h2 t List.mem_cons_self]

theorem Run.new_initial (c : Config) : (Run.new c).initial = true := by
  unfold Run.new Run.initial Traversal.new
  split <;> simp [Traversal.initial]

theorem scan_zero (c : Config) (s : Sankeys) (log : Log) :
    ∀ (trs : List Transition) (ns : List Nat), (scan c s log trs ns).1.all (· == 0) = true →
      ns.all (· == 0) = true ∧ (scan c s log trs ns).2.matched = 0
  | [], ns => by simp [scan]
  | tr :: trs, [] => by simp [scan]
  | tr :: trs, n :: ns => by
    have ih := scan_zero c s log trs ns
    unfold scan
    split
    · intro h
      simp only [List.all_cons, Bool.and_eq_true] at h ⊢
      exact ⟨⟨h.1, (ih h.2).1⟩, (ih h.2).2⟩
    · split
      · split <;> intro h <;> simp at h
      · intro h
        simp only [List.all_cons, Bool.and_eq_true] at h ⊢
        exact ⟨⟨h.1, (ih h.2).1⟩, (ih h.2).2⟩

theorem scan_targets (c : Config) (s : Sankeys) (log : Log) :
    ∀ (trs : List Transition) (ns : List Nat), (∀ tr ∈ trs, tr.target ≠ 0) →
      ∀ t ∈ (scan c s log trs ns).2.outputs, t.state ≠ 0
  | [], ns => by simp [scan]
  | tr :: trs, [] => by simp [scan]
  | tr :: trs, n :: ns => by
    intro h
    have ih := scan_targets c s log trs ns (fun x hx => h x (List.mem_cons_of_mem _ hx))
    unfold scan
    split
    · exact ih
    · split
      · split
        · intro t ht
          rcases List.mem_append.1 ht with ht | ht
          · unfold Traversal.new at ht
            split at ht
            · cases ht
            · simp only [Option.toList, List.mem_singleton] at ht
              rw [ht]
              exact h tr List.mem_cons_self
          · exact ih t ht
        · exact ih
      · exact ih

theorem Traversal.initial_state {t : Traversal} (h : t.state ≠ 0) : t.initial = false := by
  unfold Traversal.initial
  simp [h]

/-- What a traversal turns into is not initial, unless it was and nothing matched. -/
theorem next_busy {c : Config} {log : Log} {t : Traversal} (hc : c.noReturn)
    (h : t.initial = false ∨ (t.process c log).2.matched ≠ 0) : ∀ x ∈ t.next c log, x.initial = false := by
  intro x hx
  unfold Traversal.next at hx
  split at hx
  · rw [List.mem_singleton.1 hx]
    cases hi : (t.process c log).1.initial with
    | false => rfl
    | true =>
      have hz : (scan c t.sankeys log (c.transitions t.state) t.counts).1.all (· == 0) = true := by
        simp only [Traversal.initial, Traversal.process, Bool.and_eq_true] at hi
        exact hi.2
      have hs : t.state = 0 := by
        simp only [Traversal.initial, Traversal.process, Bool.and_eq_true, beq_iff_eq] at hi
        exact hi.1
      obtain ⟨h1, h2⟩ := scan_zero c t.sankeys log _ _ hz
      rcases h with h | h
      · unfold Traversal.initial at h
        rw [h1, hs] at h
        simp at h
      · exact absurd h2 h
  · exact Traversal.initial_state (scan_targets c t.sankeys log _ _ (hc t.state) x hx)

theorem process_running_ne {c : Config} {log : Log} {r : Run} (h : (r.process c log).2.state = .running) :
    (r.process c log).1.traversals ≠ [] := by
  unfold Run.process RunAcc.result at h
  dsimp only at h
  split at h
  · cases h
  · dsimp only at h
    split at h
    · cases h
    · rename_i _ h'
      show (r.acc c log).done ≠ []
      simpa using h'

theorem process_busy {c : Config} {log : Log} {r : Run} (hc : c.noReturn) (hb : r.busy)
    (h : (r.process c log).2.state = .running) : (r.process c log).1.busy := by
  refine ⟨process_running_ne h, ?_⟩
  rw [(Run.process_spec (by rw [h]; simp)).1]
  intro t ht
  obtain ⟨u, hu, ht⟩ := List.mem_flatMap.1 ht
  exact next_busy hc (.inl (hb.2 u hu)) t ht

theorem process_new {c : Config} {log : Log} (hc : c.noReturn)
    (h : ((Run.new c).process c log).2.state = .running) :
    ((Run.new c).process c log).1 = Run.new c ∨ ((Run.new c).process c log).1.busy := by
  by_cases hm : ((Run.new c).process c log).2.matched = 0
  · exact .inl (Run.process_quiet c log _ hm)
  · right
    refine ⟨process_running_ne h, ?_⟩
    obtain ⟨h1, _, _, h4⟩ := Run.process_spec (c := c) (log := log) (r := Run.new c) (by rw [h]; simp)
    rw [h1]
    rw [h4] at hm
    unfold Run.new at hm ⊢
    cases hn : Traversal.new c 0 [] with
    | none => simp
    | some t =>
      rw [hn] at hm
      intro x hx
      simp only [Option.toList, List.flatMap_cons, List.flatMap_nil, List.append_nil] at hx
      exact next_busy hc (.inr (by simpa using hm)) x hx

/-! ### The runs that remain, in order -/

/-- `xs` are some of the runs `rs`, in order, each as it was or continued. -/
inductive Derived (c : Config) (log : Log) : List Run → List Run → Prop where
  | nil : Derived c log [] []
  | skip {r rs xs} : Derived c log rs xs → Derived c log (r :: rs) xs
  | same {r rs xs} : Derived c log rs xs → Derived c log (r :: rs) (r :: xs)
  | next {r rs xs} : (r.process c log).2.state = .running → Derived c log rs xs →
      Derived c log (r :: rs) ((r.process c log).1 :: xs)

theorem Derived.erase {c : Config} {log : Log} {rs xs : List Run} (h : Derived c log rs xs) :
    ∀ i, Derived c log rs (xs.eraseIdx i) := by
  induction h with
  | nil => intro i; exact .nil
  | skip _ ih => intro i; exact .skip (ih i)
  | same h ih =>
    intro i
    cases i with
    | zero => exact .skip h
    | succ i => exact .same (ih i)
  | next hr h ih =>
    intro i
    cases i with
    | zero => exact .skip h
    | succ i => exact .next hr (ih i)

theorem settle_derived {c : Config} {log : Log} {limit : Nat} {r : Run} {rs : List Run} {a : WfAcc}
    (h : Derived c log rs a.done) :
    Derived c log (r :: rs)
      ((a.incorporate (r.process c log).2).settle limit (r.process c log).1 (r.process c log).2).done := by
  unfold WfAcc.settle
  split
  · exact .skip h
  · rename_i h1
    split
    · exact .skip h
    · rename_i h2
      refine .next ?_ h
      cases hs : (r.process c log).2.state with
      | running => rfl
      | completed => exact absurd hs h2
      | stopped => exact absurd (.inl hs) h1

theorem exclusive_derived {c : Config} {log : Log} {before : Nat} {rs : List Run} {a : WfAcc}
    (h : Derived c log rs a.done) : Derived c log rs (a.exclusive c log before).done := by
  unfold WfAcc.exclusive
  split
  · split
    · split
      · exact h.erase 1
      · exact h
    · exact h
  · exact h

theorem loop_derived (c : Config) (log : Log) (limit : Nat) (init : WfAcc) (hd : init.done = []) :
    ∀ (rs : List Run) (i : Nat), Derived c log rs (loop c log limit init i rs).done
  | [], i => by
    unfold loop
    rw [hd]
    exact .nil
  | r :: rs, i => by
    have ih := loop_derived c log limit init hd rs (i + 1)
    unfold loop
    generalize loop c log limit init (i + 1) rs = a at ih
    unfold WfAcc.visit
    split
    · exact .same ih
    · split
      · exact exclusive_derived (settle_derived ih)
      · exact settle_derived ih

/-! ### The shape of the progress of a workflow -/

/-- The runs in progress. -/
def strip (l : List Run) : List Run := l.filter (!·.initial)

/-- Where the waiting run stands. -/
def withNew (c : Config) (l : List Run) : List Run := if c.exclusive then Run.new c :: l else l ++ [Run.new c]

/-- Runs in progress, and maybe one waiting run. -/
def Shape (c : Config) (l : List Run) : Prop := ∃ a, (∀ r ∈ a, r.busy) ∧ (l = a ∨ l = withNew c a)

theorem strip_busy {a : List Run} (h : ∀ r ∈ a, r.busy) : strip a = a :=
  List.filter_eq_self.2 fun r hr => by simp [(h r hr).not_initial]

theorem strip_withNew {c : Config} {a : List Run} (h : ∀ r ∈ a, r.busy) : strip (withNew c a) = a := by
  unfold withNew strip
  split
  · rw [List.filter_cons_of_neg (by simp [Run.new_initial])]
    exact strip_busy h
  · rw [List.filter_append, List.filter_cons_of_neg (by simp [Run.new_initial]), List.filter_nil, List.append_nil]
    exact strip_busy h

theorem Shape.strip {c : Config} {l : List Run} (h : Shape c l) :
    (∀ r ∈ strip l, r.busy) ∧ (l = Wf.strip l ∨ l = withNew c (Wf.strip l)) := by
  obtain ⟨a, ha, rfl | rfl⟩ := h
  · rw [strip_busy ha]
    exact ⟨ha, .inl rfl⟩
  · rw [strip_withNew ha]
    exact ⟨ha, .inr rfl⟩

theorem Derived.busy {c : Config} {log : Log} {rs xs : List Run} (hc : c.noReturn) (h : Derived c log rs xs)
    (hb : ∀ r ∈ rs, r.busy) : ∀ x ∈ xs, x.busy := by
  induction h with
  | nil => intro x hx; cases hx
  | skip _ ih => exact ih fun r hr => hb r (List.mem_cons_of_mem _ hr)
  | same _ ih =>
    intro x hx
    rcases List.mem_cons.1 hx with rfl | hx
    · exact hb _ List.mem_cons_self
    · exact ih (fun r hr => hb r (List.mem_cons_of_mem _ hr)) x hx
  | next hr _ ih =>
    intro x hx
    rcases List.mem_cons.1 hx with rfl | hx
    · exact process_busy hc (hb _ List.mem_cons_self) hr
    · exact ih (fun r hr => hb r (List.mem_cons_of_mem _ hr)) x hx

theorem Derived.append {c : Config} {log : Log} : ∀ {a b xs : List Run}, Derived c log (a ++ b) xs →
    ∃ u v, xs = u ++ v ∧ Derived c log a u ∧ Derived c log b v
  | [], b, xs, h => ⟨[], xs, rfl, .nil, h⟩
  | r :: a, b, xs, h => by
    cases h with
    | skip h =>
      obtain ⟨u, v, rfl, h1, h2⟩ := Derived.append h
      exact ⟨u, v, rfl, .skip h1, h2⟩
    | same h =>
      obtain ⟨u, v, rfl, h1, h2⟩ := Derived.append h
      exact ⟨_ :: u, v, rfl, .same h1, h2⟩
    | next hr h =>
      obtain ⟨u, v, rfl, h1, h2⟩ := Derived.append h
      exact ⟨_ :: u, v, rfl, .next hr h1, h2⟩

theorem Derived.single {c : Config} {log : Log} {v : List Run} (hc : c.noReturn) (h : Derived c log [Run.new c] v) :
    (∀ r ∈ v, r.busy) ∨ v = [Run.new c] := by
  cases h with
  | skip h => cases h; exact .inl (by simp)
  | same h => cases h; exact .inr rfl
  | next hr h =>
    cases h
    rcases process_new hc hr with h | h
    · exact .inr (by rw [h])
    · exact .inl (by simpa using h)

theorem Derived.shape {c : Config} {log : Log} {a xs : List Run} (hc : c.noReturn) (hb : ∀ r ∈ a, r.busy)
    (h : Derived c log (withNew c a) xs) : Shape c xs := by
  unfold withNew at h
  split at h
  · rename_i he
    obtain ⟨u, v, rfl, h1, h2⟩ := Derived.append (a := [Run.new c]) h
    have hv := h2.busy hc hb
    rcases h1.single hc with hu | rfl
    · refine ⟨u ++ v, ?_, .inl rfl⟩
      intro r hr
      rcases List.mem_append.1 hr with hr | hr
      · exact hu r hr
      · exact hv r hr
    · exact ⟨v, hv, .inr (by unfold withNew; rw [if_pos he]; rfl)⟩
  · rename_i he
    obtain ⟨u, v, rfl, h1, h2⟩ := Derived.append h
    have hu := h1.busy hc hb
    rcases h2.single hc with hv | rfl
    · refine ⟨u ++ v, ?_, .inl rfl⟩
      intro r hr
      rcases List.mem_append.1 hr with hr | hr
      · exact hu r hr
      · exact hv r hr
    · exact ⟨u, hu, .inr (by unfold withNew; rw [if_neg he])⟩

theorem needsNew_busy {a : List Run} (h : ∀ r ∈ a, r.busy) : needsNew a = true := by
  unfold needsNew
  have : a.any (·.initial) = false := by
    rw [List.any_eq_false]
    intro r hr
    rw [(h r hr).not_initial]
    decide
  rw [this]
  simp

theorem needsNew_withNew (c : Config) (a : List Run) : needsNew (withNew c a) = false := by
  unfold needsNew withNew
  split <;> simp [Run.new_initial]

/-- What is processed: the runs in progress with the waiting run, unless there is no room for it. -/
theorem prepare_shape {c : Config} {limit count : Nat} {l : List Run} (h : Shape c l) :
    (prepare c limit count l).1 = withNew c (strip l) ∨
      (prepare c limit count l).1 = strip l ∧ (prepare c limit count l).2.2.limitHit = 1 := by
  obtain ⟨hb, hl⟩ := h.strip
  generalize hs : strip l = a at hb hl
  unfold prepare
  rcases hl with rfl | rfl
  · rw [if_pos (needsNew_busy hb)]
    unfold addRun
    split
    · exact .inl rfl
    · exact .inr ⟨rfl, rfl⟩
  · rw [if_neg (by rw [needsNew_withNew]; decide)]
    exact .inl rfl

theorem Shape.process {c : Config} {limit count : Nat} {log : Log} {l : List Run} (hc : c.noReturn) (h : Shape c l) :
    Shape c (processRuns c limit log count l).done := by
  unfold processRuns
  have hd := loop_derived c log limit
    { count := (prepare c limit count l).2.1, stats := (prepare c limit count l).2.2 } rfl (prepare c limit count l).1 0
  rcases prepare_shape (limit := limit) (count := count) h with hp | ⟨hp, _⟩
  · rw [hp] at hd ⊢
    exact hd.shape hc h.strip.1
  · rw [hp] at hd ⊢
    exact ⟨_, hd.busy hc h.strip.1, .inl rfl⟩

theorem Shape.empty (c : Config) : Shape c [] := ⟨[], by simp, .inl rfl⟩

theorem Shape.busy {c : Config} {l : List Run} (h : ∀ r ∈ l, r.busy) : Shape c l := ⟨l, h, .inl rfl⟩

/-- Over all histories the progress has this shape, and what is stored are runs in progress. -/
theorem shape_keeps {cs : List Config} (h : ∀ c ∈ cs, c.noReturn) :
    Keeps cs Shape (fun w => ∀ r ∈ w.runs, r.busy) where
  empty c _ := Shape.empty c
  step c hc _ _ _ _ hp := hp.process (h c hc)
  save _ _ _ hp := hp.strip.1
  load _ _ _ _ hd := Shape.busy fun r hr => hd r (List.mem_of_mem_take hr)

/-! ### The limit of the engine does not matter while it is not hit -/

def WfAcc.like (a b : WfAcc) : Prop :=
  a.done = b.done ∧ a.actions = b.actions ∧ a.progress = b.progress ∧ a.broken = b.broken

theorem exclusive_hits (a : WfAcc) (c : Config) (log : Log) (before : Nat) :
    (a.exclusive c log before).stats.limitHit = a.stats.limitHit := by
  unfold WfAcc.exclusive
  split
  · split
    · split <;> rfl
    · rfl
  · rfl

theorem settle_hits (a : WfAcc) (limit : Nat) (run : Run) (r : RunResult) :
    (a.settle limit run r).stats.limitHit = if a.count > limit then a.stats.limitHit + 1 else a.stats.limitHit := by
  unfold WfAcc.settle
  split
  · rfl
  · rename_i h
    rw [if_neg (fun hc => h (.inr hc))]
    split <;> rfl

theorem visit_hits (c : Config) (log : Log) (limit before : Nat) (run : Run) (a : WfAcc) :
    a.stats.limitHit ≤ (a.visit c log limit before run).stats.limitHit ∧
      (a.broken = false → (a.visit c log limit before run).stats.limitHit = 0 →
        ¬(a.incorporate (run.process c log).2).count > limit) := by
  unfold WfAcc.visit
  split
  · rename_i hb
    exact ⟨Nat.le_refl _, fun h => by rw [h] at hb; cases hb⟩
  · have key : ∀ (x : WfAcc), x.stats.limitHit = (if (a.incorporate (run.process c log).2).count > limit then
        a.stats.limitHit + 1 else a.stats.limitHit) → a.stats.limitHit ≤ x.stats.limitHit ∧
        (a.broken = false → x.stats.limitHit = 0 → ¬(a.incorporate (run.process c log).2).count > limit) := by
      intro x hx
      split at hx
      · exact ⟨by omega, fun _ h => by omega⟩
      · rename_i hn
        exact ⟨by omega, fun _ _ => hn⟩
    split
    · apply key
      rw [exclusive_hits, settle_hits]
      rfl
    · apply key
      rw [settle_hits]
      rfl

theorem settle_like {a b : WfAcc} {limit limit' : Nat} {run : Run} {r : RunResult} (h : a.like b)
    (ha : ¬a.count > limit) (hb : ¬b.count > limit') : (a.settle limit run r).like (b.settle limit' run r) := by
  obtain ⟨h1, h2, h3, h4⟩ := h
  unfold WfAcc.settle
  by_cases hs : r.state = .stopped
  · rw [if_pos (c := r.state = .stopped ∨ a.count > limit) (.inl hs),
      if_pos (c := r.state = .stopped ∨ b.count > limit') (.inl hs)]
    exact ⟨h1, h2, h3, h4⟩
  · rw [if_neg (c := r.state = .stopped ∨ a.count > limit) (fun h => h.elim hs ha),
      if_neg (c := r.state = .stopped ∨ b.count > limit') (fun h => h.elim hs hb)]
    split
    · exact ⟨h1, h2, rfl, h4⟩
    · exact ⟨by dsimp only; rw [h1], h2, by dsimp only; rw [h3], h4⟩

theorem exclusive_like {a b : WfAcc} {c : Config} {log : Log} {before : Nat} (h : a.like b) :
    (a.exclusive c log before).like (b.exclusive c log before) := by
  obtain ⟨h1, h2, h3, h4⟩ := h
  unfold WfAcc.exclusive
  rw [h1, h3]
  split
  · split
    · split
      · exact ⟨rfl, h2, rfl, h4⟩
      · exact ⟨h1, h2, h3, h4⟩
    · exact ⟨rfl, h2, rfl, rfl⟩
  · exact ⟨h1, h2, h3, h4⟩

theorem visit_like {a b : WfAcc} {c : Config} {log : Log} {limit limit' before : Nat} {run : Run} (h : a.like b)
    (ha : (a.visit c log limit before run).stats.limitHit = 0)
    (hb : (b.visit c log limit' before run).stats.limitHit = 0) :
    (a.visit c log limit before run).like (b.visit c log limit' before run) := by
  have hca := (visit_hits c log limit before run a).2
  have hcb := (visit_hits c log limit' before run b).2
  obtain ⟨h1, h2, h3, h4⟩ := h
  cases hbr : a.broken with
  | true =>
    unfold WfAcc.visit
    rw [if_pos hbr, if_pos (by rw [← h4]; exact hbr)]
    exact ⟨by dsimp only; rw [h1], h2, h3, h4⟩
  | false =>
    have hbr' : b.broken = false := by rw [← h4]; exact hbr
    have hl : (a.incorporate (run.process c log).2).like (b.incorporate (run.process c log).2) := by
      unfold WfAcc.incorporate
      exact ⟨h1, by dsimp only; rw [h2], h3, h4⟩
    have hs := settle_like (run := (run.process c log).1) (r := (run.process c log).2) hl (hca hbr ha) (hcb hbr' hb)
    unfold WfAcc.visit
    rw [if_neg (c := a.broken = true) (by rw [hbr]; decide), if_neg (c := b.broken = true) (by rw [hbr']; decide)]
    split
    · exact exclusive_like hs
    · exact hs

theorem loop_like {c : Config} {log : Log} {limit limit' : Nat} {a b : WfAcc} (h : a.like b) :
    ∀ (rs : List Run) (i : Nat), (loop c log limit a i rs).stats.limitHit = 0 →
      (loop c log limit' b i rs).stats.limitHit = 0 → (loop c log limit a i rs).like (loop c log limit' b i rs)
  | [], i, _, _ => h
  | r :: rs, i, ha, hb => by
    unfold loop at ha hb ⊢
    have h1 := (visit_hits c log limit i r (loop c log limit a (i + 1) rs)).1
    have h2 := (visit_hits c log limit' i r (loop c log limit' b (i + 1) rs)).1
    exact visit_like (loop_like h rs (i + 1) (by omega) (by omega)) ha hb

theorem loop_hits (c : Config) (log : Log) (limit : Nat) (a : WfAcc) :
    ∀ (rs : List Run) (i : Nat), a.stats.limitHit ≤ (loop c log limit a i rs).stats.limitHit
  | [], i => Nat.le_refl _
  | r :: rs, i => by
    unfold loop
    have h1 := (visit_hits c log limit i r (loop c log limit a (i + 1) rs)).1
    have := loop_hits c log limit a rs (i + 1)
    omega

/-- Two workflows with the same runs in progress do the same with a log. -/
theorem process_like {c : Config} {log : Log} {limit limit' count count' : Nat} {l m : List Run} (hl : Shape c l)
    (hm : Shape c m) (hs : strip l = strip m) (h1 : (processRuns c limit log count l).stats.limitHit = 0)
    (h2 : (processRuns c limit' log count' m).stats.limitHit = 0) :
    (processRuns c limit log count l).done = (processRuns c limit' log count' m).done ∧
      (processRuns c limit log count l).actions = (processRuns c limit' log count' m).actions := by
  have hp1 : (prepare c limit count l).1 = withNew c (strip l) := by
    rcases prepare_shape (limit := limit) (count := count) hl with h | ⟨_, h⟩
    · exact h
    · have := loop_hits c log limit { count := (prepare c limit count l).2.1, stats := (prepare c limit count l).2.2 }
        (prepare c limit count l).1 0
      unfold processRuns at h1
      dsimp only at this
      omega
  have hp2 : (prepare c limit' count' m).1 = withNew c (strip m) := by
    rcases prepare_shape (limit := limit') (count := count') hm with h | ⟨_, h⟩
    · exact h
    · have := loop_hits c log limit'
        { count := (prepare c limit' count' m).2.1, stats := (prepare c limit' count' m).2.2 }
        (prepare c limit' count' m).1 0
      unfold processRuns at h2
      dsimp only at this
      omega
  unfold processRuns at h1 h2 ⊢
  rw [hp1] at h1 ⊢
  rw [hp2, ← hs] at h2 ⊢
  have := loop_like (c := c) (log := log) (a := WfAcc.mk [] (prepare c limit count l).2.1 []
    (prepare c limit count l).2.2 false false) (b := WfAcc.mk [] (prepare c limit' count' m).2.1 []
    (prepare c limit' count' m).2.2 false false) ⟨rfl, rfl, rfl, rfl⟩ _ 0 h1 h2
  exact ⟨this.1, this.2.1⟩

end Verif.Wf
