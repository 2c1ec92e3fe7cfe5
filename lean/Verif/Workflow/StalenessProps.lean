import Verif.Workflow.Staleness
import Verif.Workflow.Writers

/-
C120: how long a change of the workflow state is only in memory.
-/
namespace Verif.Wf.Stale

/-- What the property speaks about: an event that changes the state. -/
def Changes : Ev → Bool
  | .log c _ _ _ => c
  | .other c => c
  | _ => false

/-- Events that end in a call of `maybe_persist`, with the interval they read. -/
def Reaches (Q : Nat) : Ev → Prop
  | .log _ _ w i => w = true ∧ i ≤ Q
  | .flush => True
  | .tick i => i ≤ Q
  | .other _ => False

def count (es : List (Nat × Ev)) : Nat := (es.filter fun te => Changes te.2).length

/-- Nothing the engine has changed is forgotten: what is not in the file is marked. -/
structure Ok (t : Nat) (s : T) : Prop where
  le : s.file ≤ s.snap
  dirty : s.file < s.snap → s.dirty = true
  last : ∀ l, s.last = some l → l ≤ t

theorem Ok.change {t s} (h : Ok t s) (c) : Ok t (s.change c) := by
  unfold T.change
  split
  · exact ⟨Nat.le_succ_of_le h.le, fun _ => rfl, h.last⟩
  · exact h

theorem Ok.persist {t s} (h : Ok t s) {now f i} (hn : t ≤ now) : Ok now (s.persist now f i) := by
  have hl : ∀ l, s.last = some l → l ≤ now := fun l e => Nat.le_trans (h.last l e) hn
  unfold T.persist
  split
  · exact ⟨h.le, h.dirty, hl⟩
  · split
    · exact ⟨h.le, h.dirty, hl⟩
    · exact ⟨Nat.le_refl _, fun hc => absurd hc (Nat.lt_irrefl _), fun l e => by cases e; exact Nat.le_refl _⟩

theorem Ok.step {t s} (h : Ok t s) {p te} (hn : t ≤ te.1) : Ok te.1 (s.step p te) := by
  have key : ∀ s' : T, Ok te.1 s' → Ok te.1 { s' with deadline := te.1 + p } := fun s' h' => ⟨h'.le, h'.dirty, h'.last⟩
  have h0 : Ok te.1 s := ⟨h.le, h.dirty, fun l e => Nat.le_trans (h.last l e) hn⟩
  obtain ⟨now, e⟩ := te
  cases e with
  | log c b w i =>
    refine key _ ?_
    show Ok now (if w then _ else _)
    split
    · exact (h0.change c).persist (Nat.le_refl _)
    · exact h0.change c
  | flush => exact key _ (h0.persist (Nat.le_refl _))
  | other c => exact key _ (h0.change c)
  | tick i => exact key _ (h0.persist (Nat.le_refl _))

theorem change_snap (s : T) (c : Bool) : (s.change c).snap = s.snap + (if c then 1 else 0) := by
  unfold T.change; split <;> simp_all

theorem persist_snap (s : T) (n f i) : (s.persist n f i).snap = s.snap := by
  unfold T.persist; split; rfl; split <;> rfl

theorem step_snap (p : Nat) (s : T) (te : Nat × Ev) : (s.step p te).snap = s.snap + count [te] := by
  obtain ⟨now, e⟩ := te
  cases e with
  | log c b w i => cases c <;> cases w <;> simp [T.step, persist_snap, change_snap, count, Changes]
  | flush => simp [T.step, persist_snap, count, Changes]
  | other c => cases c <;> simp [T.step, change_snap, count, Changes]
  | tick i => simp [T.step, persist_snap, count, Changes]

theorem count_append (a b : List (Nat × Ev)) : count (a ++ b) = count a + count b := by
  simp [count]

theorem run_snap (p : Nat) : ∀ (es : List (Nat × Ev)) (s : T), (s.run p es).snap = s.snap + count es
  | [], s => rfl
  | te :: es, s => by
    show (T.run p (s.step p te) es).snap = _
    rw [run_snap p es, step_snap, show te :: es = [te] ++ es from rfl, count_append, Nat.add_assoc]

theorem change_file (s : T) (c : Bool) : (s.change c).file = s.file ∧ (s.change c).last = s.last := by
  unfold T.change; split <;> exact ⟨rfl, rfl⟩

/-- A write puts the whole state into the file. -/
theorem persist_file (s : T) (n f i) :
    ((s.persist n f i).file = s.file ∧ (s.persist n f i).last = s.last) ∨
    ((s.persist n f i).file = s.snap ∧ (s.persist n f i).last = some n) := by
  unfold T.persist; split
  · exact Or.inl ⟨rfl, rfl⟩
  · split
    · exact Or.inl ⟨rfl, rfl⟩
    · exact Or.inr ⟨rfl, rfl⟩

/-- A step leaves file and time of the last write alone, or the file has everything. -/
theorem step_file (p : Nat) (s : T) (te : Nat × Ev) :
    ((s.step p te).file = s.file ∧ (s.step p te).last = s.last) ∨ (s.step p te).file = (s.step p te).snap := by
  obtain ⟨now, e⟩ := te
  cases e with
  | log c b w i =>
    cases w with
    | false => exact Or.inl (change_file s c)
    | true =>
      rcases persist_file (s.change c) now b i with h | h
      · left; exact ⟨h.1.trans (change_file s c).1, h.2.trans (change_file s c).2⟩
      · right; show ((s.change c).persist now b i).file = ((s.change c).persist now b i).snap
        rw [h.1, persist_snap]
  | flush =>
    rcases persist_file s now true 0 with h | h
    · exact Or.inl h
    · right; show (s.persist now true 0).file = (s.persist now true 0).snap
      rw [h.1, persist_snap]
  | other c => exact Or.inl (change_file s c)
  | tick i =>
    rcases persist_file s now false i with h | h
    · exact Or.inl h
    · right; show (s.persist now false i).file = (s.persist now false i).snap
      rw [h.1, persist_snap]

/-- Once the interval is over since the last write, an event that reaches `maybe_persist` writes what is marked. -/
theorem persist_due {s : T} {n f i} (hd : s.dirty = true) (hl : ∀ l, s.last = some l → l + i ≤ n) : (s.persist n f i).file = s.snap := by
  unfold T.persist
  rw [if_neg (by simp [hd])]
  rw [if_neg]
  intro h
  cases hs : s.last with
  | none => simp [hs, early] at h
  | some l => simp [hs, early] at h; have := hl l hs; omega

theorem step_due {Q p : Nat} {t : Nat} {s : T} (hok : Ok t s) (hu : s.file < s.snap) {te : Nat × Ev} (hr : Reaches Q te.2)
    (hl : ∀ l, s.last = some l → l + Q ≤ te.1) : (s.step p te).file = (s.step p te).snap := by
  have hd := hok.dirty hu
  obtain ⟨now, e⟩ := te
  cases e with
  | log c b w i =>
    obtain ⟨rfl, hi⟩ := hr
    have hd' : (s.change c).dirty = true := by unfold T.change; split <;> simp [hd]
    show ((s.change c).persist now b i).file = ((s.change c).persist now b i).snap
    rw [persist_snap]
    exact persist_due hd' fun l e => by
      rw [(change_file s c).2] at e
      have := hl l e; simp only at this; omega
  | flush =>
    show (s.persist now true 0).file = (s.persist now true 0).snap
    rw [persist_snap]
    exact persist_due hd fun l e => by have := hl l e; simp only at this; omega
  | other c => exact hr.elim
  | tick i =>
    show (s.persist now false i).file = (s.persist now false i).snap
    rw [persist_snap]
    have hi : i ≤ Q := hr
    exact persist_due hd fun l e => by have := hl l e; simp only at this; omega

theorem file_mono (p : Nat) {t : Nat} {s : T} (h : Ok t s) (te : Nat × Ev) : s.file ≤ (s.step p te).file := by
  rcases step_file p s te with e | e
  · exact Nat.le_of_eq e.1.symm
  · rw [e, step_snap]; have := h.le; omega

/-- While a change is missing in the file, nothing was written since, and the sleep was started anew by nothing later than `d + Q`. -/
theorem unsaved {period lag Q d n : Nat} : ∀ (es : List (Nat × Ev)) (t : Nat) (s : T), Ok t s → n ≤ s.snap → Legal period lag t s es →
    (∀ te ∈ es, Reaches Q te.2 ∨ te.1 ≤ d) → (∀ l, s.last = some l → l ≤ d) → s.deadline ≤ d + Q + period →
    n ≤ (s.run period es).file ∨ (s.run period es).deadline ≤ d + Q + period := by
  intro es
  induction es with
  | nil => intro t s _ _ _ _ _ hd; exact Or.inr hd
  | cons te es ih =>
    intro t s hok hn hleg hq hl hdl
    obtain ⟨h1, h2, h3, h4⟩ := hleg
    have hok' := hok.step (p := period) h1
    have hn' : n ≤ (s.step period te).snap := by rw [step_snap]; omega
    have stays : ∀ (es : List (Nat × Ev)) (t : Nat) (s : T), Ok t s → Legal period lag t s es → n ≤ s.file → n ≤ (s.run period es).file := by
      intro es
      induction es with
      | nil => intro t s _ _ h; exact h
      | cons te es ih =>
        intro t s hok hleg h
        exact ih te.1 _ (hok.step hleg.1) hleg.2.2.2 (Nat.le_trans h (file_mono period hok te))
    show n ≤ (T.run period (s.step period te) es).file ∨ _
    rcases step_file period s te with e | e
    · by_cases hu : n ≤ s.file
      · exact Or.inl (stays es te.1 _ hok' h4 (by rw [e.1]; exact hu))
      · have hlate : te.1 ≤ d + Q := by
          rcases hq te (List.mem_cons_self ..) with hr | hr
          · apply Classical.byContradiction
            intro hc
            have := step_due (p := period) hok (by omega) hr (fun l hl' => by have := hl l hl'; omega)
            rw [e.1] at this; omega
          · omega
        exact ih te.1 _ hok' hn' h4 (fun x hx => hq x (List.mem_cons_of_mem _ hx)) (fun l hl' => hl l (e.2 ▸ hl'))
          (show te.1 + period ≤ _ by omega)
    · exact Or.inl (stays es te.1 _ hok' h4 (by rw [e]; exact hn'))

theorem ok_run {period lag : Nat} : ∀ (es : List (Nat × Ev)) (t : Nat) (s : T), Ok t s → Legal period lag t s es →
    Ok (es.foldl (fun _ te => te.1) t) (s.run period es)
  | [], _, _, h, _ => h
  | te :: es, t, s, h, hl => ok_run es te.1 _ (h.step hl.1) hl.2.2.2

theorem legal_append {period lag : Nat} : ∀ (a b : List (Nat × Ev)) (t : Nat) (s : T), Legal period lag t s (a ++ b) →
    Legal period lag t s a ∧ Legal period lag (a.foldl (fun _ te => te.1) t) (s.run period a) b
  | [], _, _, _, h => ⟨trivial, h⟩
  | te :: a, b, t, s, h => by
    obtain ⟨h1, h2, h3, h4⟩ := h
    have := legal_append a b te.1 _ h4
    exact ⟨⟨h1, h2, h3, this.1⟩, this.2⟩

/-- **C120.** A change of the state is in the file at the latest `period + Q + lag` after the later of the change and the last event that
starts the sleep anew without a call of `maybe_persist`.  `pre` is any history, `te` the change, `post` what follows, `now` any time at which
the task is not late by more than `lag`; the interval flag has any values up to `Q`. -/
theorem C120_bounded_partial (period lag Q : Nat) (pre post : List (Nat × Ev)) (te : Nat × Ev)
    (hleg : Legal period lag 0 { deadline := period } (pre ++ te :: post))
    (d : Nat) (hd : te.1 ≤ d) (hq : ∀ x ∈ post, Reaches Q x.2 ∨ x.1 ≤ d)
    (now : Nat) (hnow : now ≤ (T.run period { deadline := period } (pre ++ te :: post)).deadline + lag)
    (hlate : d + period + Q + lag < now) :
    count (pre ++ [te]) ≤ (T.run period { deadline := period } (pre ++ te :: post)).file := by
  have h0 : Ok 0 ({ deadline := period } : T) := ⟨Nat.le_refl _, fun h => absurd h (Nat.lt_irrefl _), nofun⟩
  obtain ⟨l1, l2⟩ := legal_append _ _ _ _ hleg
  have o1 := ok_run _ _ _ h0 l1
  have o2 := o1.step (p := period) l2.1
  have er : ∀ s : T, T.run period s (pre ++ te :: post) = T.run period (T.step period (T.run period s pre) te) post := by
    intro s; simp [T.run]
  have hsn : (T.step period (T.run period { deadline := period } pre) te).snap = count (pre ++ [te]) := by
    rw [step_snap, run_snap, count_append]; simp
  rw [er] at hnow ⊢
  rcases unsaved (Q := Q) (d := d) (n := count (pre ++ [te])) post te.1 _ o2 (Nat.le_of_eq hsn.symm) l2.2.2.2 hq
    (fun l e => Nat.le_trans (o2.last l e) hd) (show te.1 + period ≤ _ by omega) with h | h
  · exact h
  · omega

/-- A blocking log and a flush of the state leave nothing in memory only. -/
theorem C120_forced (period lag : Nat) (es : List (Nat × Ev)) (te : Nat × Ev)
    (hleg : Legal period lag 0 { deadline := period } (es ++ [te]))
    (h : te.2 = .flush ∨ ∃ c i, te.2 = .log c true true i) :
    (T.run period { deadline := period } (es ++ [te])).file = count (es ++ [te]) := by
  have h0 : Ok 0 ({ deadline := period } : T) := ⟨Nat.le_refl _, fun h => absurd h (Nat.lt_irrefl _), nofun⟩
  obtain ⟨l1, l2⟩ := legal_append _ _ _ _ hleg
  have o1 := ok_run _ _ _ h0 l1
  have o2 := o1.step (p := period) l2.1
  have er : T.run period { deadline := period } (es ++ [te]) = T.step period (T.run period { deadline := period } es) te := by simp [T.run]
  have hsn : (T.step period (T.run period { deadline := period } es) te).snap = count (es ++ [te]) := by
    rw [step_snap, run_snap, count_append]; simp
  rw [er, ← hsn]
  have key : ∀ (s : T) (n i : Nat), s.file ≤ s.snap → (s.file < s.snap → s.dirty = true) → (s.persist n true i).file = s.snap := by
    intro s n i h1 h2
    unfold T.persist
    split
    · rename_i hd
      apply Nat.le_antisymm h1
      apply Classical.byContradiction; intro hc
      have := h2 (by omega)
      simp [this] at hd
    · simp
  generalize T.run period { deadline := period } es = s at o1
  obtain ⟨now, e⟩ := te
  rcases h with h | ⟨c, i, h⟩ <;> cases h
  · show (s.persist now true 0).file = (s.persist now true 0).snap
    rw [persist_snap]; exact key s now 0 o1.le o1.dirty
  · show ((s.change c).persist now true i).file = ((s.change c).persist now true i).snap
    rw [persist_snap]; exact key _ now i (o1.change c).le (o1.change c).dirty

/-! ### No more writes than needed -/

/-- What is marked is not in the file. -/
def Due (s : T) : Prop := s.file ≤ s.snap ∧ (s.dirty = true → s.file < s.snap)

theorem Due.change {s : T} (h : Due s) (c : Bool) : Due (s.change c) := by
  unfold T.change
  split
  · exact ⟨Nat.le_succ_of_le h.1, fun _ => Nat.lt_succ_of_le h.1⟩
  · exact h

theorem Due.persist {s : T} (h : Due s) (now : Nat) (f : Bool) (i : Nat) : Due (s.persist now f i) := by
  unfold T.persist
  split
  · exact h
  · split
    · exact h
    · exact ⟨Nat.le_refl _, nofun⟩

theorem Due.step {s : T} (h : Due s) (p : Nat) (te : Nat × Ev) : Due (s.step p te) := by
  have key : ∀ s' : T, Due s' → Due { s' with deadline := te.1 + p } := fun s' h' => h'
  obtain ⟨now, e⟩ := te
  cases e with
  | log c b w i =>
    refine key _ ?_
    show Due (if w then _ else _)
    split
    · exact (h.change c).persist _ _ _
    · exact h.change c
  | flush => exact key _ (h.persist _ _ _)
  | other c => exact key _ (h.change c)
  | tick i => exact key _ (h.persist _ _ _)

theorem Due.run (p : Nat) : ∀ (es : List (Nat × Ev)) {s : T}, Due s → Due (s.run p es)
  | [], _, h => h
  | te :: es, _, h => Due.run p es (h.step p te)

/-- While the file holds every change, nothing is written; and unless it is forced, a write comes no sooner after the last one than the interval. -/
theorem C120_sparing (period : Nat) (es : List (Nat × Ev)) (te : Nat × Ev) :
    let s := T.run period { deadline := period } es
    let t := T.run period { deadline := period } (es ++ [te])
    (s.file = count (es ++ [te]) → t.last = s.last ∧ t.file = s.file) ∧
    (∀ l i, s.last = some l → (te.2 = .tick i ∨ ∃ c w, te.2 = .log c false w i) → te.1 - l < i → t.last = s.last ∧ t.file = s.file) := by
  intro s t
  have hs : Due s := Due.run period es ⟨Nat.le_refl _, nofun⟩
  have ht : t = T.step period s te := by simp [t, s, T.run]
  have hn : s.snap + (if Changes te.2 then 1 else 0) = count (es ++ [te]) := by
    have : s.snap = ({ deadline := period } : T).snap + count es := run_snap ..
    rw [this, count_append]
    simp only [count, List.filter]
    cases Changes te.2 <;> simp
  rw [ht]
  obtain ⟨now, e⟩ := te
  constructor
  · intro hf
    have h1 := hs.1
    have hc : Changes e = false := by
      cases h : Changes e with
      | false => rfl
      | true => simp [h] at hn; omega
    have hd : s.dirty = false := by
      cases h : s.dirty with
      | false => rfl
      | true => have := hs.2 h; simp [hc] at hn; omega
    have hp : ∀ f i, s.persist now f i = s := by intro f i; unfold T.persist; simp [hd]
    cases e with
    | log c b w i =>
      have hc : c = false := hc
      subst hc
      cases w <;> simp [T.step, T.change, hp]
    | flush => simp [T.step, hp]
    | other c =>
      have hc : c = false := hc
      subst hc
      simp [T.step, T.change]
    | tick i => simp [T.step, hp]
  · intro l i hl he hi
    have hp : ∀ s' : T, s'.last = some l → (s'.persist now false i).last = s'.last ∧ (s'.persist now false i).file = s'.file := by
      intro s' h'
      unfold T.persist early
      have : now - l < i := hi
      split
      · exact ⟨rfl, rfl⟩
      · simp [h', this]
    rcases he with he | ⟨c, w, he⟩
    · cases he
      exact hp s hl
    · cases he
      have hl' : (s.change c).last = s.last ∧ (s.change c).file = s.file := by unfold T.change; split <;> exact ⟨rfl, rfl⟩
      cases w with
      | false => exact hl'
      | true =>
        have := hp (s.change c) (hl'.1.trans hl)
        exact ⟨this.1.trans hl'.1, this.2.trans hl'.2⟩

/-- The rule is the one of the model with overlapping writes (C119). -/
theorem C120_same_rule (last : Option Nat) (force : Bool) (now interval : Nat) :
    Writers.due last force now interval = (force || !early last now interval) := by
  unfold Writers.due early
  cases force with
  | true => rfl
  | false =>
    cases last with
    | none => rfl
    | some l => by_cases h : now - l < interval <;> simp [h] <;> omega

/-- Two logs within the interval: the second is not written, and after the write by the sleep nothing more is. -/
example : (T.run 5000 { deadline := 5000 } [(10, Ev.log true false true 1000), (300, .log true false true 1000)]).last = some 10 ∧
    (T.run 5000 { deadline := 5000 } [(10, Ev.log true false true 1000), (300, .log true false true 1000), (5300, .tick 1000), (9000, .flush)]).last =
      some 5300 := by decide

/-- The first write, a change, and then only fields, one per millisecond. -/
def steady (Q n : Nat) : List (Nat × Ev) :=
  [(0, .log true true true Q), (0, .log true false true Q)] ++ (List.range n).map fun k => (k + 1, .other false)

/-- As long as fields are set at least once per period, a change of the state stays in memory only: for every `n` there is a history after
which the change is `n` milliseconds old and not in the file. -/
theorem C120_steady_violated (period lag Q n : Nat) (hp : 1 ≤ period) (hQ : 1 ≤ Q) :
    Legal period lag 0 { deadline := period } (steady Q n) ∧
    (T.run period { deadline := period } (steady Q n)).file = 1 ∧ count (steady Q n) = 2 ∧
    n ≤ (T.run period { deadline := period } (steady Q n)).deadline := by
  have s2 : ∀ s : T, s = { deadline := period, last := some 0, dirty := true, snap := 2, file := 1 } → ∀ m,
      T.run period s ((List.range m).map fun k => (k + 1, Ev.other false)) = { s with deadline := m + period } := by
    intro s hs m
    induction m with
    | zero => subst hs; simp [T.run]
    | succ m ih =>
      rw [List.range_succ, List.map_append, T.run, List.foldl_append]
      show T.run period (T.run period s _) _ = _
      rw [ih]; subst hs; simp [T.run, T.step, T.change]
  have e1 : T.run period { deadline := period } [(0, .log true true true Q), (0, .log true false true Q)] =
      { deadline := period, last := some 0, dirty := true, snap := 2, file := 1 } := by
    have : 0 < Q := hQ
    simp [T.run, T.step, T.change, T.persist, early, this]
  have er : T.run period { deadline := period } (steady Q n) = { deadline := n + period, last := some 0, dirty := true, snap := 2, file := 1 } := by
    unfold steady
    rw [T.run, List.foldl_append]
    show T.run period (T.run period _ _) _ = _
    rw [e1, s2 _ rfl]
  refine ⟨?_, by rw [er], ?_, by rw [er]; simp⟩
  · have gen : ∀ m j (s : T), s.deadline = j + period →
        Legal period lag j s ((List.range' j m).map fun k => (k + 1, Ev.other false)) := by
      intro m
      induction m with
      | zero => intro j s _; exact trivial
      | succ m ih =>
        intro j s hs
        rw [List.range'_succ]
        refine ⟨Nat.le_succ j, by show j + 1 ≤ _; omega, nofun, ih (j + 1) _ rfl⟩
    refine ⟨Nat.le_refl _, Nat.zero_le _, nofun, Nat.le_refl _, Nat.zero_le _, nofun, ?_⟩
    rw [List.range_eq_range']
    exact gen n 0 _ (by simp [T.step])
  · rw [steady, count_append]
    have : count ((List.range n).map fun k => (k + 1, Ev.other false)) = 0 := by
      simp [count, Changes]
    rw [this]; rfl

/-- A log changes the state less than a second after the last write; the sleep of five seconds stores it. -/
example : (T.run 5000 { deadline := 5000 }
    ([(10, Ev.log true false true 1000)] ++ (300, .log true false true 1000) :: [(400, .other false), (5403, .tick 1000)])).file = 2 := by
  apply Nat.le_antisymm (by decide)
  exact C120_bounded_partial 5000 5 1000 [(10, .log true false true 1000)] [(400, .other false), (5403, .tick 1000)] (300, .log true false true 1000)
    (by simp [Legal, T.step, T.change, T.persist, early]) 400 (by decide) (by simp [Reaches]) 6500 (by decide) (by decide)

end Verif.Wf.Stale
