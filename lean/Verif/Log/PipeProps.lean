import Verif.Log.Pipe
import Verif.Mgr.Props

/-
C42: a log is written to every buffer selected for it.  C43: blocking logs are durable when the call returns.
C55: tail streams.
-/
namespace Verif.Pipe

open Verif.Mgr (Id Handle Mgr flushReq ids)

/-- A write that does not make the whole operation fail. -/
def Soft (x : W) : Prop := x = .ok ∨ x = .locked ∨ x = .full

theorem writeAll_soft (w : Id → W) (l : List Id) (h : ∀ b ∈ l, Soft (w b)) :
    writeAll w l = (l.filter (fun b => decide (w b = .ok)), true) := by
  induction l with
  | nil => rfl
  | cons b l ih =>
    have ih' := ih (fun x hx => h x (List.mem_cons_of_mem _ hx))
    unfold writeAll
    rcases h b List.mem_cons_self with hb | hb | hb
    · rw [hb]; simp only; rw [ih', List.filter_cons_of_pos (by simp [hb])]
    · rw [hb]; simp only; rw [ih', List.filter_cons_of_neg (by simp [hb])]
    · rw [hb]; simp only; rw [ih', List.filter_cons_of_neg (by simp [hb])]

theorem writeAll_sub (w : Id → W) (l : List Id) : ∀ b ∈ (writeAll w l).1, b ∈ l ∧ w b = .ok := by
  induction l with
  | nil => simp [writeAll]
  | cons b l ih =>
    intro x hx
    unfold writeAll at hx
    cases hb : w b with
    | ok =>
      rw [hb] at hx
      rcases List.mem_cons.mp hx with rfl | hx
      · exact ⟨List.mem_cons_self, hb⟩
      · exact ⟨List.mem_cons_of_mem _ (ih x hx).1, (ih x hx).2⟩
    | locked => rw [hb] at hx; exact ⟨List.mem_cons_of_mem _ (ih x hx).1, (ih x hx).2⟩
    | full => rw [hb] at hx; exact ⟨List.mem_cons_of_mem _ (ih x hx).1, (ih x hx).2⟩
    | err => rw [hb] at hx; simp at hx
    | missing => rw [hb] at hx; simp at hx

/-- The destination of a log: as the engine says, or the selected buffers without an engine. -/
def destination (matching : List Id) : Option EngineResult → List Id
  | some r => r.dest
  | none => matching

theorem mem_steps_wrote (b : Id) (l : List Id) : Step.wrote b ∈ l.map Step.wrote ↔ b ∈ l := by simp

theorem finishBlocking_steps (e : Env) (m : List Id) : ∀ s ∈ (finishBlocking e m).1, (∃ h, s = .flushed h) ∨ s = .statsFlushed := by
  intro s hs
  have gen : ∀ (l : List Step) (f : List Handle), (l = [] ∨ l = [.statsFlushed]) → s ∈ f.map Step.flushed ++ l →
      (∃ h, s = .flushed h) ∨ s = .statsFlushed := by
    intro l f hl h
    rcases List.mem_append.mp h with h | h
    · obtain ⟨x, _, rfl⟩ := List.mem_map.mp h
      exact Or.inl ⟨x, rfl⟩
    · rcases hl with rfl | rfl
      · cases h
      · exact Or.inr (List.mem_singleton.mp h)
  unfold finishBlocking at hs
  simp only at hs
  have hst : (match e.stats with
    | none => (([], true) : List Step × Bool)
    | some true => ([.statsFlushed], true)
    | some false => ([], false)).1 = [] ∨ (match e.stats with
    | none => (([], true) : List Step × Bool)
    | some true => ([.statsFlushed], true)
    | some false => ([], false)).1 = [.statsFlushed] := by
    cases e.stats with
    | none => exact Or.inl rfl
    | some x => cases x <;> simp
  by_cases h1 : m.isEmpty = true
  · rw [if_pos h1] at hs
    exact gen _ [] hst hs
  · rw [if_neg h1] at hs
    by_cases h2 : e.flushAlive = true
    · rw [if_pos h2] at hs
      by_cases h3 : (flushReq e.mgr m).acked = true
      · rw [if_pos h3] at hs
        exact gen _ _ hst hs
      · rw [if_neg h3] at hs
        exact gen [] _ (Or.inl rfl) (by rw [List.append_nil]; exact hs)
    · rw [if_neg h2] at hs
      cases hs

theorem finishBlocking_no_wrote (e : Env) (m : List Id) (b : Id) : Step.wrote b ∉ (finishBlocking e m).1 ∧
    Step.synth b ∉ (finishBlocking e m).1 := by
  constructor <;>
  · intro h
    rcases finishBlocking_steps e m _ h with ⟨x, hx⟩ | hx <;> cases hx

theorem mem_process_wrote (e : Env) (matching : List Id) (engine : Option EngineResult) (blocking : Bool) (b : Id) :
    Step.wrote b ∈ (process e matching engine blocking).steps ↔ b ∈ (writeAll e.w (destination matching engine)).1 := by
  have h1 : Step.wrote b ∈ (writes e matching engine blocking).1 ↔ b ∈ (writeAll e.w (destination matching engine)).1 := by
    unfold writes destination
    cases engine with
    | none => simp
    | some r =>
      simp only
      split
      · split
        · split <;> simp
        · simp
      · simp
  rw [← h1]
  unfold process
  simp only
  have h2 := (finishBlocking_no_wrote e (writes e matching engine blocking).2.1 b).1
  split
  · split
    · simp only [List.mem_append, List.mem_singleton]
      constructor
      · rintro ((h | h) | h)
        · exact h
        · exact absurd h h2
        · cases h
      · intro h; exact Or.inl (Or.inl h)
    · rfl
  · split <;> simp

/-- C42, except for buffers that fail in other ways: if every write succeeds or is refused because the buffer is locked or full, then
the log is written to exactly the buffers of its destination that accept it, once each and in order. -/
theorem C42_written_partial (e : Env) (matching : List Id) (engine : Option EngineResult) (blocking : Bool)
    (h : ∀ b ∈ destination matching engine, Soft (e.w b)) :
    (∀ b, Step.wrote b ∈ (process e matching engine blocking).steps ↔ b ∈ destination matching engine ∧ e.w b = .ok) ∧
    (writeAll e.w (destination matching engine)).1 = (destination matching engine).filter fun b => decide (e.w b = .ok) := by
  have h1 := writeAll_soft e.w _ h
  refine ⟨?_, by rw [h1]⟩
  intro b
  rw [mem_process_wrote, h1]
  simp

/-- C42: never to a buffer outside the destination or that does not accept it, whatever fails. -/
theorem C42_only (e : Env) (matching : List Id) (engine : Option EngineResult) (blocking : Bool) (b : Id)
    (h : Step.wrote b ∈ (process e matching engine blocking).steps) :
    b ∈ destination matching engine ∧ e.w b = .ok :=
  writeAll_sub e.w _ b ((mem_process_wrote e matching engine blocking b).mp h)

theorem writeAll_hard (w : Id → W) (pre : List Id) (b : Id) (post : List Id) (h : ∀ x ∈ pre, Soft (w x)) (hb : ¬ Soft (w b)) :
    writeAll w (pre ++ b :: post) = (pre.filter (fun x => decide (w x = .ok)), false) := by
  induction pre with
  | nil =>
    simp only [List.nil_append, writeAll, List.filter_nil]
    cases hw : w b with
    | ok => exact absurd (Or.inl hw) hb
    | locked => exact absurd (Or.inr (Or.inl hw)) hb
    | full => exact absurd (Or.inr (Or.inr hw)) hb
    | err => rfl
    | missing => rfl
  | cons x pre ih =>
    have hi := ih fun y hy => h y (List.mem_cons_of_mem _ hy)
    simp only [List.cons_append, writeAll, hi]
    rcases h x List.mem_cons_self with hx | hx | hx <;> simp [hx]

/-- C42, errors: at the first buffer that fails in another way, or that has no producer, processing ends.  Nothing but the writes before it
happens: no flush, no synthetic log, nothing is saved; a blocking caller is let go; the error is returned. -/
theorem C42_error (e : Env) (matching : List Id) (engine : Option EngineResult) (blocking : Bool) (pre post : List Id) (b : Id)
    (hd : destination matching engine = pre ++ b :: post) (h : ∀ x ∈ pre, Soft (e.w x)) (hb : ¬ Soft (e.w b)) :
    process e matching engine blocking =
      ⟨(pre.filter fun x => decide (e.w x = .ok)).map .wrote ++ (if blocking then [.abandoned] else []), e.flushAlive, false⟩ := by
  have hw := writeAll_hard e.w pre b post h hb
  rw [← hd] at hw
  unfold process writes
  cases engine with
  | none =>
    simp only [destination] at hw
    simp [hw]
  | some r =>
    simp only [destination] at hw
    simp [hw]

/-- An unknown buffer between two known ones. -/
example : process ⟨fun b => if b = 2 then .missing else .ok, fun _ => .ok, ⟨[1, 3], []⟩, Mgr.init, true, none⟩ [1, 2, 3] none true =
    ⟨[.wrote 1, .abandoned], true, false⟩ := by decide

/-- A buffer that fails in another way, for instance because the log is too large for it, prevents the later ones from
receiving the log. -/
theorem C42_error_violated :
    let e : Env := ⟨fun b => if b = 1 then .err else .ok, fun _ => .ok, ⟨[1, 2], []⟩, Mgr.init, true, none⟩
    e.w 2 = .ok ∧ Step.wrote 2 ∉ (process e [1, 2] none false).steps := by decide

theorem disjoint_false {a b : List Id} (h : disjoint a b = false) : ∃ x ∈ a, x ∈ b := by
  unfold disjoint at h
  rw [List.all_eq_false] at h
  obtain ⟨x, hx, h2⟩ := h
  exact ⟨x, hx, by simpa using h2⟩

/-- C42, when every trigger buffer the log goes to is among those flushed: if all writes succeed, a log that triggers the flush
of buffers is in one of the flushed buffers, itself or as a synthetic copy, or in a continuous buffer. -/
theorem C42_flush_partial (e : Env) (matching : List Id) (r : EngineResult) (blocking : Bool)
    (hok : ∀ b ∈ r.dest, e.w b = .ok) (hok2 : ∀ b ∈ r.flushes, e.w2 b = .ok) (ha : r.actions ≠ []) (hf : r.flushes ≠ [])
    (ht : ∀ b ∈ r.dest, b ∈ e.producers.trigger → b ∈ r.flushes) :
    ∃ b, (b ∈ r.flushes ∨ b ∈ e.producers.continuous) ∧
      (Step.wrote b ∈ (process e matching (some r) blocking).steps ∨ Step.synth b ∈ (process e matching (some r) blocking).steps) := by
  have hw : ∀ b ∈ r.dest, Step.wrote b ∈ (process e matching (some r) blocking).steps := by
    intro b hb
    exact ((C42_written_partial e matching (some r) blocking (fun x hx => Or.inl (hok x hx))).1 b).mpr ⟨hb, hok b hb⟩
  have hsy : ∀ b, synthetic e.producers r = some b → e.w2 b = .ok → Step.synth b ∈ (process e matching (some r) blocking).steps := by
    intro b hs h2
    have hwr := writeAll_soft e.w r.dest (fun x hx => Or.inl (hok x hx))
    have : writes e matching (some r) blocking =
        ((writeAll e.w r.dest).1.map .wrote ++ [.synth b] ++ [.persist blocking], matching ++ [b], true) := by
      simp only [writes, hwr, hs, h2, if_true]
    unfold process
    rw [this]
    cases blocking <;> simp
  have ha' : r.actions.isEmpty = false := by cases hh : r.actions with
    | nil => exact absurd hh ha
    | cons _ _ => rfl
  by_cases hc : disjoint r.dest e.producers.continuous = true
  · by_cases ht2 : disjoint r.dest e.producers.trigger = true
    · cases hfl : r.flushes with
      | nil => exact absurd hfl hf
      | cons b bs =>
        have hs : synthetic e.producers r = some b := by
          unfold synthetic
          simp [ha', hc, ht2, hfl]
        exact ⟨b, Or.inl (by simp), Or.inr (hsy b hs (hok2 b (by simp [hfl])))⟩
    · obtain ⟨x, hx, hx2⟩ := disjoint_false (by simpa using ht2)
      exact ⟨x, Or.inl (ht x hx hx2), Or.inl (hw x hx)⟩
  · obtain ⟨x, hx, hx2⟩ := disjoint_false (by simpa using hc)
    exact ⟨x, Or.inr hx2, Or.inl (hw x hx)⟩

/-- A log that goes to a trigger buffer other than the flushed one is in no flushed buffer and no copy is made. -/
theorem C42_flush_violated :
    let e : Env := ⟨fun _ => .ok, fun _ => .ok, ⟨[], [1, 2]⟩, Mgr.init, true, none⟩
    (process e [1] (some ⟨[1], [7], [2]⟩) false).steps = [.wrote 1, .persist false] := by decide

/-- The steps before the caller is let go. -/
def beforeRelease (l : List Step) : List Step := l.takeWhile fun s => decide (s ≠ .released) && decide (s ≠ .abandoned)

theorem takeWhile_append_all {α : Type} (p : α → Bool) (a b : List α) (h : ∀ x ∈ a, p x = true) :
    (a ++ b).takeWhile p = a ++ b.takeWhile p := by
  induction a with
  | nil => rfl
  | cons x a ih =>
    rw [List.cons_append, List.takeWhile_cons_of_pos (h x List.mem_cons_self),
      ih (fun y hy => h y (List.mem_cons_of_mem _ hy)), List.cons_append]

theorem writes_no_release (e : Env) (matching : List Id) (engine : Option EngineResult) (blocking : Bool) :
    ∀ s ∈ (writes e matching engine blocking).1, s ≠ .released ∧ s ≠ .abandoned := by
  intro s hs
  unfold writes at hs
  cases engine with
  | none =>
    simp only [List.mem_map] at hs
    obtain ⟨b, _, rfl⟩ := hs
    simp
  | some r =>
    simp only at hs
    split at hs
    · split at hs
      · simp only [List.mem_append, List.mem_map, List.mem_singleton] at hs
        rcases hs with (⟨b, _, rfl⟩ | hs) | rfl
        · simp
        · split at hs
          · rw [List.mem_singleton.mp hs]; simp
          · simp at hs
        · simp
      · simp only [List.mem_append, List.mem_map, List.mem_singleton] at hs
        rcases hs with ⟨b, _, rfl⟩ | rfl <;> simp
    · simp only [List.mem_map] at hs
      obtain ⟨b, _, rfl⟩ := hs
      simp

theorem finishBlocking_no_release (e : Env) (m : List Id) : ∀ s ∈ (finishBlocking e m).1, s ≠ .released ∧ s ≠ .abandoned := by
  intro s hs
  rcases finishBlocking_steps e m _ hs with ⟨x, rfl⟩ | rfl <;> simp

/-- C43, when the log goes to the buffers the selector chose (workflows do not redirect it), no write fails other than by a
full or locked buffer, the flush task runs and every selected buffer still exists: every buffer the log, or its synthetic copy, was
written to has been flushed before the caller is released, and the stats have been flushed if they can be. -/
theorem C43_flushed_partial (e : Env) (hm : (ids e.mgr.bufs).Nodup) (matching : List Id) (engine : Option EngineResult)
    (hdest : ∀ r, engine = some r → ∀ b ∈ r.dest, b ∈ matching)
    (hsoft : ∀ b ∈ destination matching engine, Soft (e.w b)) (halive : e.flushAlive = true)
    (hknown : ∀ b ∈ matching, b ∈ ids e.mgr.bufs)
    (hknown2 : ∀ r, engine = some r → ∀ b ∈ r.flushes, b ∈ ids e.mgr.bufs) :
    let steps := (process e matching engine true).steps
    Step.released ∈ steps ∧ Step.abandoned ∉ steps ∧
    (∀ b, (Step.wrote b ∈ steps ∨ Step.synth b ∈ steps) →
      ∃ en ∈ e.mgr.bufs, en.id = b ∧ Step.flushed en.h ∈ beforeRelease steps) ∧
    (e.stats = some true → Step.statsFlushed ∈ beforeRelease steps) := by
  have hwr := writeAll_soft e.w _ hsoft
  have hok : (writes e matching engine true).2.2 = true := by
    unfold writes
    cases engine with
    | none => simp only [destination] at hwr; simp only [hwr]
    | some r =>
      simp only [destination] at hwr
      simp only [hwr, if_true]
      split <;> rfl
  have hfl : ∀ b ∈ (writes e matching engine true).2.1, b ∈ ids e.mgr.bufs := by
    unfold writes
    cases engine with
    | none => exact hknown
    | some r =>
      simp only [destination] at hwr
      simp only [hwr, if_true]
      intro b hb
      split at hb
      · rename_i x hsy
        simp only [List.mem_append, List.mem_singleton] at hb
        rcases hb with hb | rfl
        · exact hknown b hb
        · refine hknown2 r rfl b ?_
          unfold synthetic at hsy
          split at hsy
          · cases hsy
          · simp only at hsy
            split at hsy
            · cases hsy
            · exact List.mem_of_mem_head? hsy
      · exact hknown b hb
  have hsteps : (process e matching engine true).steps =
      (writes e matching engine true).1 ++ (finishBlocking e (writes e matching engine true).2.1).1 ++ [.released] := by
    unfold process
    simp only [hok, if_true]
  have hbefore : beforeRelease (process e matching engine true).steps =
      (writes e matching engine true).1 ++ (finishBlocking e (writes e matching engine true).2.1).1 := by
    rw [hsteps]
    unfold beforeRelease
    rw [takeWhile_append_all]
    · simp
    · intro s hs
      rcases List.mem_append.mp hs with hs | hs
      · have := writes_no_release _ _ _ _ s hs; simp [this]
      · have := finishBlocking_no_release _ _ s hs; simp [this]
  have hack : (writes e matching engine true).2.1 ≠ [] → (flushReq e.mgr (writes e matching engine true).2.1).acked = true := by
    intro _
    exact (Verif.Mgr.C54_flush e.mgr hm _).1.mpr hfl
  have hfin : ∀ b ∈ (writes e matching engine true).2.1, ∃ en ∈ e.mgr.bufs, en.id = b ∧
      Step.flushed en.h ∈ (finishBlocking e (writes e matching engine true).2.1).1 := by
    intro b hb
    obtain ⟨en, hen, henid⟩ := List.mem_map.mp (hfl b hb)
    refine ⟨en, hen, henid, ?_⟩
    have hne : (writes e matching engine true).2.1 ≠ [] := List.ne_nil_of_mem hb
    have hne' : (writes e matching engine true).2.1.isEmpty = false := by
      cases hh : (writes e matching engine true).2.1 with
      | nil => exact absurd hh hne
      | cons _ _ => rfl
    have h1 := (Verif.Mgr.C54_flush e.mgr hm (writes e matching engine true).2.1).2.2.1 (hack hne) en hen
      (Or.inr (henid ▸ hb))
    unfold finishBlocking
    simp only [hne', Bool.false_eq_true, if_false, halive, if_true, hack hne]
    exact List.mem_append_left _ (List.mem_map.mpr ⟨en.h, h1, rfl⟩)
  refine ⟨by rw [hsteps]; simp, ?_, ?_, ?_⟩
  · rw [hsteps]
    intro h
    simp only [List.mem_append, List.mem_singleton] at h
    rcases h with (h | h) | h
    · exact (writes_no_release _ _ _ _ _ h).2 rfl
    · exact (finishBlocking_no_release _ _ _ h).2 rfl
    · cases h
  · intro b hb
    have hmem : b ∈ (writes e matching engine true).2.1 := by
      rcases hb with hb | hb
      · obtain ⟨hd, _⟩ := C42_only e matching engine true b hb
        have hbm : b ∈ matching := by
          cases engine with
          | none => exact hd
          | some r => exact hdest r rfl b hd
        unfold writes
        cases engine with
        | none => exact hbm
        | some r =>
          simp only
          split
          · split
            · exact List.mem_append_left _ hbm
            · exact hbm
          · exact hbm
      · rw [hsteps] at hb
        simp only [List.mem_append, List.mem_singleton] at hb
        rcases hb with (hb | hb) | hb
        · unfold writes at hb ⊢
          cases engine with
          | none => simp at hb
          | some r =>
            simp only [destination] at hwr
            simp only [hwr, if_true] at hb ⊢
            split at hb
            · simp only [List.mem_append, List.mem_map, List.mem_singleton] at hb
              rcases hb with (⟨x, _, hx⟩ | hb) | hb
              · cases hx
              · split at hb
                · cases List.mem_singleton.mp hb
                  simp
                · simp at hb
              · cases hb
            · simp at hb
        · exact absurd hb (finishBlocking_no_wrote _ _ b).2
        · cases hb
    obtain ⟨en, h1, h2, h3⟩ := hfin b hmem
    exact ⟨en, h1, h2, by rw [hbefore]; exact List.mem_append_right _ h3⟩
  · intro hst
    rw [hbefore]
    apply List.mem_append_right
    unfold finishBlocking
    simp only [hst]
    by_cases hne : (writes e matching engine true).2.1 = []
    · simp [hne]
    · have hne' : (writes e matching engine true).2.1.isEmpty = false := by
        cases hh : (writes e matching engine true).2.1 with
        | nil => exact absurd hh hne
        | cons _ _ => rfl
      simp [hne', halive, hack hne]

/-- The workflow engine redirects the log to buffer 2 (streaming after a flush): buffer 2 receives it and is not flushed
when the caller is released. -/
theorem C43_redirect_violated :
    let m := Verif.Mgr.run [.update [⟨1, some .trigger⟩, ⟨2, some .continuous⟩] false (fun _ => true)]
    let e : Env := ⟨fun _ => .ok, fun _ => .ok, ⟨[2], [1]⟩, m, true, none⟩
    (process e [1] (some ⟨[2], [], []⟩) true).steps = [.wrote 2, .persist true, .flushed 0, .released] ∧
    m.bufs = [⟨1, .trigger, 0⟩, ⟨2, .continuous, 1⟩] := by decide

/-- A selected buffer that no longer exists ends the flush task; the caller is released without a flush, now and for every
later blocking log. -/
theorem C43_unknown_violated :
    let m := Verif.Mgr.run [.update [⟨2, some .trigger⟩] false (fun _ => true)]
    let e : Env := ⟨fun _ => .ok, fun _ => .ok, ⟨[], [1, 2]⟩, m, true, none⟩
    process e [1, 2] none true = ⟨[.wrote 1, .wrote 2, .released], false, false⟩ ∧
    process { e with flushAlive := false } [2] none true = ⟨[.wrote 2, .released], false, false⟩ := by decide

/-- C43: workflow state is persisted by force for a blocking log. -/
theorem C43_persist (e : Env) (matching : List Id) (r : EngineResult) (hsoft : ∀ b ∈ r.dest, Soft (e.w b)) :
    Step.persist true ∈ beforeRelease (process e matching (some r) true).steps := by
  have hwr := writeAll_soft e.w _ hsoft
  have hok : (writes e matching (some r) true).2.2 = true := by
    unfold writes
    simp only [hwr, if_true]
    split <;> rfl
  have hsteps : (process e matching (some r) true).steps =
      (writes e matching (some r) true).1 ++ ((finishBlocking e (writes e matching (some r) true).2.1).1 ++ [.released]) := by
    unfold process
    simp only [hok, if_true, List.append_assoc]
  rw [hsteps]
  unfold beforeRelease
  rw [takeWhile_append_all]
  · apply List.mem_append_left
    unfold writes
    simp only [hwr, if_true]
    split <;> simp
  · intro s hs
    have := writes_no_release _ _ _ _ s hs; simp [this]

/-! ### C55 -/

/-- C55: a log is streamed to exactly the configured streams whose matcher compiles and matches it or that have no
matcher, once each in configuration order, and is not written to the stream buffer if there are none. -/
theorem C55_stream (l : List StreamCfg) :
    (stream (tailNew l)).getD [] = (l.filter fun s => decide (s.matcher = none ∨ s.matcher = some (some true))).map (·.id) ∧
    (stream (tailNew l) ≠ some []) := by
  have h1 : ∀ l : List StreamCfg, (l.filterMap compileStream).filterMap activeStream =
      (l.filter fun s => decide (s.matcher = none ∨ s.matcher = some (some true))).map (·.id) := by
    intro l
    induction l with
    | nil => rfl
    | cons s l ih =>
      obtain ⟨i, m⟩ := s
      cases m with
      | none => simp [compileStream, activeStream, ih]
      | some x =>
        cases x with
        | none => rw [List.filterMap_cons_none rfl, ih, List.filter_cons_of_neg (by simp)]
        | some b => cases b <;> simp [compileStream, activeStream, ih]
  constructor
  · unfold stream tailNew
    cases l with
    | nil => rfl
    | cons s l =>
      simp only [List.isEmpty_cons, Bool.false_eq_true, if_false]
      rw [h1]
      split
      · rename_i h2
        rw [List.isEmpty_iff] at h2
        rw [h2]; rfl
      · rfl
  · unfold stream
    split
    · simp
    · simp only
      split
      · simp
      · rename_i h2
        intro h3
        simp only [Option.some.injEq] at h3
        exact h2 (by rw [h3]; rfl)

example : stream (tailNew [⟨1, none⟩, ⟨2, some none⟩, ⟨3, some (some false)⟩, ⟨4, some (some true)⟩]) = some [1, 4] ∧
    stream (tailNew [⟨3, some (some false)⟩]) = none := by decide

example :
    let m := Verif.Mgr.run [.update [⟨1, some .trigger⟩, ⟨2, some .continuous⟩, ⟨3, some .trigger⟩] false (fun _ => true)]
    let e : Env := ⟨fun b => if b = 1 then .full else .ok, fun _ => .ok, ⟨[], [1, 3]⟩, m, true, some true⟩
    (process e [1, 2] (some ⟨[1, 2], [9], [3]⟩) true).steps =
      [.wrote 2, .persist true, .flushed 0, .flushed 1, .statsFlushed, .released] ∧
    (process e [2] (some ⟨[2], [9], [3]⟩) true).steps = [.wrote 2, .synth 3, .persist true, .flushed 1, .flushed 2, .statsFlushed, .released] := by
  decide

end Verif.Pipe
