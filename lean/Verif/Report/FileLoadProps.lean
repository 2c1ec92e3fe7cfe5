import Verif.Report.FileLoad
import Mathlib.Data.List.Induction

/-
C88: the configuration in use is that of the file.
-/
namespace Verif.Report

variable {α β : Type} (parse : String → Option α) (conv : Option α → β)

/-- The contents the file has had, the first one first. -/
def contents (c0 : Option String) (evs : List FEv) : List (Option String) :=
  c0 :: evs.filterMap fun e => match e with | .rename c => some c | .change c => some c | _ => none

theorem contents_snoc (c0 : Option String) (evs : List FEv) (e : FEv) :
    contents c0 (evs ++ [e]) = contents c0 evs ++ (match e with | .rename c => [c] | .change c => [c] | _ => []) := by
  cases e <;> simp [contents, List.filterMap_append]

theorem fl_snoc (s : FL β) (evs : List FEv) (e : FEv) : s.run parse conv (evs ++ [e]) = (s.run parse conv evs).step parse conv e := by
  simp [FL.run]

theorem send_fields (s : FL β) (e : NEv) :
    (s.send e).file = s.file ∧ (s.send e).snap = s.snap ∧ (s.send e).ended = s.ended ∧ (s.send e).closed = s.closed := by
  unfold FL.send
  split <;> exact ⟨rfl, rfl, rfl, rfl⟩

theorem step_file (s : FL β) (e : FEv) :
    (s.step parse conv e).file = match e with | .rename c => c | .change c => c | _ => s.file := by
  cases e with
  | rename c => exact (send_fields _ _).1
  | change c => exact (send_fields _ _).1
  | noise => exact (send_fields _ _).1
  | error => exact (send_fields _ _).1
  | load =>
    simp only [FL.step]
    split <;> rfl
  | poll =>
    simp only [FL.step]
    split
    · rfl
    · split
      · split <;> rfl
      · rfl
      · rfl
      · rfl
  | shutdown => rfl

theorem file_run (c0 : Option String) (evs : List FEv) :
    (contents c0 evs).getLast? = some ((FL.init c0).run parse conv evs).file := by
  induction evs using List.reverseRecOn with
  | nil => rfl
  | append_singleton evs e ih =>
    rw [fl_snoc, contents_snoc, step_file]
    cases e <;> simp [ih]

/-- C88: what the users see is always the conversion of a content the file has really had; so a file that is missing or does not parse is
seen as the conversion of "no configuration", and never as something else. -/
theorem C88_real (c0 : Option String) (evs : List FEv) (x : β) (h : ((FL.init c0).run parse conv evs).snap = some x) :
    ∃ c ∈ contents c0 evs, x = conv (c.bind parse) := by
  have hl : ∀ c : Option String, loadConfig parse conv c = conv (c.bind parse) := by
    intro c
    unfold loadConfig
    cases c with
    | none => rfl
    | some d =>
      simp only [Option.bind_some]
      cases parse d <;> rfl
  induction evs using List.reverseRecOn with
  | nil => cases h
  | append_singleton evs e ih =>
    rw [fl_snoc] at h
    have hsub : ∀ c, c ∈ contents c0 evs → c ∈ contents c0 (evs ++ [e]) := by
      intro c hc
      rw [contents_snoc]
      exact List.mem_append_left _ hc
    have hf := List.mem_of_getLast? (file_run parse conv c0 evs)
    have old : ((FL.init c0).run parse conv evs).snap = some x →
        ∃ c ∈ contents c0 (evs ++ [e]), x = conv (c.bind parse) := by
      intro h'
      obtain ⟨c, hc, hx⟩ := ih h'
      exact ⟨c, hsub c hc, hx⟩
    have new : loadConfig parse conv ((FL.init c0).run parse conv evs).file = x →
        ∃ c ∈ contents c0 (evs ++ [e]), x = conv (c.bind parse) := by
      intro h'
      exact ⟨_, hsub _ hf, by rw [← h', hl]⟩
    generalize (FL.init c0).run parse conv evs = s at *
    cases e with
    | rename c => exact old ((send_fields { s with file := c } _).2.1.symm.trans h)
    | change c => exact old ((send_fields { s with file := c } _).2.1.symm.trans h)
    | noise => exact old ((send_fields _ _).2.1.symm.trans h)
    | error => exact old ((send_fields _ _).2.1.symm.trans h)
    | load =>
      simp only [FL.step] at h
      split at h
      · exact old h
      · exact new (Option.some.inj h)
    | poll =>
      simp only [FL.step] at h
      split at h
      · exact old h
      · split at h
        · split at h <;> exact old h
        · exact new (Option.some.inj h)
        · exact old h
        · exact old h
    | shutdown => exact old h

/-- The watcher reports no error, is not dropped, and the file is changed only by renames. -/
def Orderly (evs : List FEv) : Prop :=
  FEv.error ∉ evs ∧ FEv.shutdown ∉ evs ∧ ∀ c, FEv.change c ∉ evs

/-- Events that put something into the channel. -/
def sends (evs : List FEv) : Nat :=
  evs.countP fun e => match e with | .rename _ => true | .change _ => true | .noise => true | .error => true | _ => false

structure FL.Good (s : FL β) (n : Nat) : Prop where
  alive : s.ended = false ∧ s.closed = false
  noerr : NEv.err ∉ s.queue
  fresh : s.snap.isSome = true → NEv.both ∉ s.queue → s.snap = some (loadConfig parse conv s.file)
  len : s.queue.length ≤ n

theorem good_run (c0 : Option String) (evs : List FEv) (h : Orderly evs) :
    ((FL.init c0).run parse conv evs).Good parse conv (sends evs) := by
  induction evs using List.reverseRecOn with
  | nil => exact ⟨⟨rfl, rfl⟩, by simp [FL.run, FL.init], fun h' => by simp [FL.run, FL.init] at h', by simp [FL.run, FL.init]⟩
  | append_singleton evs e ih =>
    obtain ⟨h1, h2, h3⟩ := h
    have ih := ih ⟨fun hm => h1 (List.mem_append_left _ hm), fun hm => h2 (List.mem_append_left _ hm),
      fun c hm => h3 c (List.mem_append_left _ hm)⟩
    have hs : sends (evs ++ [e]) = sends evs + (match e with | .rename _ => 1 | .change _ => 1 | .noise => 1 | .error => 1 | _ => 0) := by
      cases e <;> simp [sends, List.countP_append]
    rw [fl_snoc, hs]
    generalize (FL.init c0).run parse conv evs = s at *
    obtain ⟨⟨ha, hcl⟩, hne, hfr, hlen⟩ := ih
    cases e with
    | rename c =>
      simp only [FL.step, FL.send, hcl, Bool.false_eq_true, if_false]
      refine ⟨⟨ha, rfl⟩, by simp [hne], fun _ hb => by simp at hb, by simpa using hlen⟩
    | change c => exact absurd (by simp) (h3 c)
    | noise =>
      simp only [FL.step, FL.send, hcl, Bool.false_eq_true, if_false]
      refine ⟨⟨ha, rfl⟩, by simp [hne], fun h' hb => hfr h' (by simpa using hb), by simpa using hlen⟩
    | error => simp at h1
    | load =>
      simp only [FL.step]
      split
      · exact ⟨⟨ha, hcl⟩, hne, hfr, hlen⟩
      · exact ⟨⟨ha, hcl⟩, hne, fun _ _ => rfl, hlen⟩
    | poll =>
      simp only [FL.step]
      split
      · exact ⟨⟨ha, hcl⟩, hne, hfr, hlen⟩
      · split
        · next hq =>
          simp only [hcl, Bool.false_eq_true, if_false]
          exact ⟨⟨ha, hcl⟩, hne, hfr, hlen⟩
        · next q hq =>
          rw [hq] at hne hlen
          exact ⟨⟨ha, hcl⟩, fun hm => hne (List.mem_cons_of_mem _ hm), fun _ _ => rfl,
            Nat.le_trans (Nat.le_succ _) hlen⟩
        · next q hq =>
          rw [hq] at hne hlen hfr
          exact ⟨⟨ha, hcl⟩, fun hm => hne (List.mem_cons_of_mem _ hm),
            fun h' hb => hfr h' (by simpa using hb), Nat.le_trans (Nat.le_succ _) hlen⟩
        · next q hq =>
          rw [hq] at hne
          simp at hne
    | shutdown => simp at h2

/-- Polling empties the channel. -/
theorem poll_drain (n : Nat) (s : FL β) (m : Nat) (h : s.Good parse conv m) (hs : s.snap.isSome = true)
    (hn : s.queue.length ≤ n) :
    let t := s.run parse conv (List.replicate n .poll)
    t.queue = [] ∧ t.file = s.file ∧ t.snap = some (loadConfig parse conv s.file) := by
  induction n generalizing s with
  | zero =>
    have hq : s.queue = [] := List.length_eq_zero_iff.mp (Nat.le_zero.mp hn)
    exact ⟨hq, rfl, h.fresh hs (by rw [hq]; simp)⟩
  | succ n ih =>
    intro t
    have ht : t = (s.step parse conv .poll).run parse conv (List.replicate n .poll) := rfl
    rw [ht]
    obtain ⟨⟨ha, hcl⟩, hne, hfr, hlen⟩ := h
    have hnn : s.snap.isNone = false := by
      cases hx : s.snap <;> simp_all
    have hfile : (s.step parse conv .poll).file = s.file := step_file parse conv s .poll
    rw [← hfile]
    rcases hq : s.queue with _ | ⟨e, q⟩
    · have he : s.step parse conv .poll = s := by
        simp only [FL.step, ha, hnn, hq, hcl, Bool.or_self, Bool.false_eq_true, if_false]
      rw [he]
      exact ih s ⟨⟨ha, hcl⟩, hne, hfr, hlen⟩ hs (by rw [hq]; simp)
    · rw [hq] at hne hn hfr hlen
      simp only [List.length_cons] at hn hlen
      cases e with
      | both =>
        have he : s.step parse conv .poll = { s with queue := q, snap := some (loadConfig parse conv s.file) } := by
          simp only [FL.step, ha, hnn, hq, Bool.or_self, Bool.false_eq_true, if_false]
        rw [he]
        exact ih _ ⟨⟨ha, hcl⟩, fun hm => hne (List.mem_cons_of_mem _ hm), fun _ _ => rfl, by simp only; omega⟩ rfl
          (by simp only; omega)
      | other =>
        have he : s.step parse conv .poll = { s with queue := q } := by
          simp only [FL.step, ha, hnn, hq, Bool.or_self, Bool.false_eq_true, if_false]
        rw [he]
        exact ih _ ⟨⟨ha, hcl⟩, fun hm => hne (List.mem_cons_of_mem _ hm), fun h' hb => hfr h' (by simpa using hb),
          by simp only; omega⟩ hs (by simp only; omega)
      | err => simp at hne

/-- C88, partial: when the file is changed only by renames within the directory and the watcher works, then, at whatever moment the changes
happen (also between setting up the watch and the first load), once the task has handled what is in the channel the users see the
conversion of what is in the file.

Missing: changes that are not renames within the directory (`C88_moved_in_violated`) and watcher errors (`C88_error_violated`). -/
theorem C88_fresh_partial (c0 : Option String) (evs : List FEv) (h : Orderly evs) (hl : FEv.load ∈ evs) (n : Nat) (hn : sends evs ≤ n) :
    ∃ c, (contents c0 evs).getLast? = some c ∧
      ((FL.init c0).run parse conv (evs ++ List.replicate n .poll)).snap = some (conv (c.bind parse)) := by
  have hg := good_run parse conv c0 evs h
  have hf := file_run parse conv c0 evs
  have hs : ((FL.init c0).run parse conv evs).snap.isSome = true := by
    clear hg hf hn h
    induction evs using List.reverseRecOn with
    | nil => cases hl
    | append_singleton evs e ih =>
      rw [fl_snoc]
      by_cases he : e = .load
      · subst he
        simp only [FL.step]
        split
        · assumption
        · rfl
      · have hm : FEv.load ∈ evs := by
          rcases List.mem_append.mp hl with hm | hm
          · exact hm
          · rw [List.mem_singleton] at hm
            exact absurd hm.symm he
        have ih := ih hm
        generalize (FL.init c0).run parse conv evs = s at *
        cases e with
        | load => exact absurd rfl he
        | rename c => rw [show (s.step parse conv (.rename c)).snap = s.snap from (send_fields _ _).2.1]; exact ih
        | change c => rw [show (s.step parse conv (.change c)).snap = s.snap from (send_fields _ _).2.1]; exact ih
        | noise => rw [show (s.step parse conv .noise).snap = s.snap from (send_fields _ _).2.1]; exact ih
        | error => rw [show (s.step parse conv .error).snap = s.snap from (send_fields _ _).2.1]; exact ih
        | poll =>
          simp only [FL.step]
          split
          · exact ih
          · split
            · split <;> exact ih
            · rfl
            · exact ih
            · exact ih
        | shutdown => exact ih
  refine ⟨_, hf, ?_⟩
  have hsplit : (FL.init c0).run parse conv (evs ++ List.replicate n .poll) =
      ((FL.init c0).run parse conv evs).run parse conv (List.replicate n .poll) := by
    simp [FL.run]
  rw [hsplit, (poll_drain parse conv n _ _ hg hs (Nat.le_trans hg.len hn)).2.2]
  congr 1
  unfold loadConfig
  cases ((FL.init c0).run parse conv evs).file with
  | none => rfl
  | some d =>
    simp only [Option.bind_some]
    cases parse d <;> rfl

/-- C88: after its task has ended, the loader shows what it showed then. -/
theorem C88_final (s : FL β) (evs : List FEv) (h : s.ended = true) (hs : s.snap.isSome = true) :
    (s.run parse conv evs).snap = s.snap ∧ (s.run parse conv evs).ended = true := by
  induction evs generalizing s with
  | nil => exact ⟨rfl, h⟩
  | cons e evs ih =>
    have key : (s.step parse conv e).snap = s.snap ∧ (s.step parse conv e).ended = true := by
      cases e with
      | rename c => exact ⟨(send_fields _ _).2.1, (send_fields _ _).2.2.1.trans h⟩
      | change c => exact ⟨(send_fields _ _).2.1, (send_fields _ _).2.2.1.trans h⟩
      | noise => exact ⟨(send_fields _ _).2.1, (send_fields _ _).2.2.1.trans h⟩
      | error => exact ⟨(send_fields _ _).2.1, (send_fields _ _).2.2.1.trans h⟩
      | load => simp [FL.step, hs, h]
      | poll => simp [FL.step, h]
      | shutdown => exact ⟨rfl, h⟩
    have := ih (s.step parse conv e) key.2 (key.1 ▸ hs)
    exact ⟨this.1.trans key.1, this.2⟩

/-- A parser for the examples: numbers written in unary. -/
def unary (d : String) : Option Nat := if d = "" then none else some d.length

/-- A rename between the set-up of the watch and the first load, one after it, one to a file that does not parse. -/
example :
    let evs := [FEv.rename (some "aa"), .load, .poll, .noise, .rename (some "aaa"), .poll, .poll]
    Orderly evs ∧ ((FL.init (some "a")).run unary (fun x => x.getD 0) evs).snap = some 3 ∧
    ((FL.init (some "a")).run unary (fun x => x.getD 0) (evs ++ [.rename (some ""), .poll])).snap = some 0 := by
  refine ⟨⟨by decide, by decide, fun c => by simp⟩, by decide, by decide⟩

/-- C88 violated: one error of the watcher (`while let Some(Ok(event))`) ends the task; the file is renamed afterwards, and the old
configuration stays in use however long one waits. -/
theorem C88_error_violated (n : Nat) :
    ((FL.init (some "a")).run unary (fun x => x.getD 0)
      ([FEv.load, .error, .poll, .rename (some "aa")] ++ List.replicate n .poll)).snap = some 1 := by
  have : (FL.init (some "a")).run unary (fun x => x.getD 0)
      ([FEv.load, .error, .poll, .rename (some "aa")] ++ List.replicate n .poll) =
    ((FL.init (some "a")).run unary (fun x => x.getD 0) [FEv.load, .error, .poll, .rename (some "aa")]).run unary (fun x => x.getD 0)
      (List.replicate n .poll) := by
    simp [FL.run]
  rw [this, (C88_final unary _ _ _ (by decide) (by decide)).1]
  decide

/-- C88 violated: a new file moved in from another directory (or written in place, or renamed while the kernel's event queue was full) is
not loaded until the next rename within the directory. -/
theorem C88_moved_in_violated (n : Nat) :
    ((FL.init (some "a")).run unary (fun x => x.getD 0)
      ([FEv.load, .change (some "aa"), .poll] ++ List.replicate n .poll)).snap = some 1 := by
  have : ∀ (n : Nat) (s : FL Nat), s.queue = [] → s.closed = false →
      (s.run unary (fun x => x.getD 0) (List.replicate n .poll)).snap = s.snap := by
    intro n
    induction n with
    | zero => intro s _ _; rfl
    | succ n ih =>
      intro s hq hc
      have he : s.step unary (fun x => x.getD 0) .poll = s := by
        simp [FL.step, hq, hc]
      rw [List.replicate_succ]
      show ((s.step unary (fun x => x.getD 0) .poll).run unary (fun x => x.getD 0) _).snap = _
      rw [he]
      exact ih s hq hc
  have hsp : (FL.init (some "a")).run unary (fun x => x.getD 0)
      ([FEv.load, .change (some "aa"), .poll] ++ List.replicate n .poll) =
    ((FL.init (some "a")).run unary (fun x => x.getD 0) [FEv.load, .change (some "aa"), .poll]).run unary (fun x => x.getD 0)
      (List.replicate n .poll) := by
    simp [FL.run]
  rw [hsp, this n _ (by decide) (by decide)]
  decide

end Verif.Report
