import Verif.Workflow.Writers
import Verif.Workflow.SnapshotProps

/-
C119: what is on the disk when writes of the workflow state overlap.
-/
namespace Verif.Wf.Writers

open Verif.Wf.Snap

/-- A state that can be written and read (C102). -/
def Sound (mem : Nat) (s : Snap) : Prop := s.Fits mem ∧ s.Timely

theorem load_bytes {mem : Nat} {s : Snap} (h : Sound mem s) (r : List UInt8) : load mem (some (bytes s ++ r)) = some s := by
  have := ((C102_format mem s h.1).1 h.2).2 r
  simp only [load, bytes, this]

theorem bytes_pos (s : Snap) : 8 ≤ (bytes s).length := by
  have hl : ∀ k n, (le k n).length = k := by
    intro k
    induction k with
    | zero => intro n; rfl
    | succ k ih => intro n; simp [le, ih]
  show 8 ≤ (andThen (le 8 (strBytes s.session).length ++ strBytes s.session, true) _).1.length
  simp only [andThen, if_true, List.length_append, hl]
  omega

theorem load_nil (mem : Nat) {s : Snap} (h : Sound mem s) : load mem (some []) = none := by
  have hp := bytes_pos s
  have h0 := (C102_format mem s h.1).2 0 (Or.inl (by unfold bytes at hp; omega))
  rw [List.take_zero] at h0
  simp only [load, h0]

theorem load_nil' (mem : Nat) : load mem (some []) = none := rfl

theorem job_mem {w : W} {id : Nat} {j : Job} (h : w.job id = some j) : j ∈ w.jobs ∧ j.id = id := by
  unfold W.job at h
  exact ⟨List.mem_of_find?_eq_some h, by have := List.find?_some h; simpa using this⟩

/-! ### Small states -/

/-- The states the engine was given. -/
def given (es : List Ev) (s : Snap) : Prop := Ev.change s ∈ es

structure Small (f0 : Option (List UInt8)) (P : Snap → Prop) (w : W) : Prop where
  file : w.file = f0 ∨ w.file = some [] ∨ ∃ s r, P s ∧ w.file = some (bytes s ++ r)
  jobs : ∀ j ∈ w.jobs, P j.snap ∧ j.pos = 0 ∧ (j.opened = true → w.file = some [] ∨ ∃ s r, P s ∧ w.file = some (bytes s ++ r))
  dirty : w.dirty = true → P w.snap

theorem Small.step {f0 : Option (List UInt8)} {P : Snap → Prop} {cap : Nat} {w : W} (hP : ∀ s, P s → (bytes s).length ≤ cap) (h : Small f0 P w)
    (e : Ev) (he : ∀ s, e = .change s → P s) : Small f0 P (w.step cap e) := by
  cases e with
  | change s =>
    simp only [W.step]
    split
    · exact ⟨h.file, h.jobs, fun _ => he s rfl⟩
    · exact h
  | persist run force now interval =>
    simp only [W.step]
    split
    · next hc =>
      simp only [Bool.and_eq_true] at hc
      refine ⟨h.file, fun j hj => ?_, h.dirty⟩
      rw [List.mem_append, List.mem_singleton] at hj
      rcases hj with hj | rfl
      · exact h.jobs j hj
      · exact ⟨h.dirty hc.1.2, rfl, nofun⟩
    · exact h
  | resume =>
    simp only [W.step]
    split
    · split
      · exact ⟨h.file, h.jobs, nofun⟩
      · exact h
    · exact h
  | cancel =>
    simp only [W.step]
    split
    · split
      · exact ⟨h.file, h.jobs, h.dirty⟩
      · exact h
    · exact h
  | create id =>
    simp only [W.step]
    split
    · next j hj =>
      split
      · exact h
      · refine ⟨Or.inr (Or.inl rfl), fun k hk => ?_, h.dirty⟩
        obtain ⟨hm, _⟩ := job_mem hj
        simp only [W.setJob, List.mem_map] at hk
        obtain ⟨k', hk', rfl⟩ := hk
        split
        · exact ⟨(h.jobs j hm).1, (h.jobs j hm).2.1, fun _ => Or.inl rfl⟩
        · exact ⟨(h.jobs k' hk').1, (h.jobs k' hk').2.1, fun _ => Or.inl rfl⟩
    · exact h
  | write id n =>
    simp only [W.step]
    split
    · next j hj =>
      obtain ⟨hm, _⟩ := job_mem hj
      obtain ⟨hs, hp, _⟩ := h.jobs j hm
      have hcap := hP _ hs
      split
      · next hc =>
        simp only [Bool.and_eq_true, Bool.or_eq_true, decide_eq_true_eq] at hc
        have hn : n = (bytes j.snap).length := by omega
        have hf : overlay (w.file.getD []) j.pos ((bytes j.snap |>.drop j.pos).take n) =
            bytes j.snap ++ (w.file.getD []).drop (bytes j.snap).length := by
          simp [overlay, hp, hn]
        rw [hf, if_pos (by omega)]
        have hnew : ∃ s r, P s ∧ some (bytes j.snap ++ (w.file.getD []).drop (bytes j.snap).length) = some (bytes s ++ r) :=
          ⟨j.snap, _, hs, rfl⟩
        refine ⟨Or.inr (Or.inr hnew), fun k hk => ?_, h.dirty⟩
        have hk' := (List.mem_filter.1 hk).1
        exact ⟨(h.jobs k hk').1, (h.jobs k hk').2.1, fun _ => Or.inr hnew⟩
      · exact h
    · exact h

theorem Small.run {f0 : Option (List UInt8)} {P : Snap → Prop} {cap : Nat} (hP : ∀ s, P s → (bytes s).length ≤ cap) (es : List Ev) :
    ∀ {w : W}, (∀ s, Ev.change s ∈ es → P s) → Small f0 P w → Small f0 P (w.run cap es) := by
  induction es with
  | nil => intro w _ h; exact h
  | cons e es ih =>
    intro w he h
    exact ih (fun s hs => he s (List.mem_cons_of_mem _ hs)) (h.step hP e fun s e' => he s (by rw [e']; exact List.mem_cons_self ..))

/-- C119, for states that fit into one write.  Whatever writes overlap and are left alone, and whenever the process ends: the next process
finds the file as it was at the start, no state, or exactly one of the states the engine had.  Never a mixture.
Missing: larger states (`C119_mixed_violated`). -/
theorem C119_state_partial (mem cap : Nat) (f0 : Option (List UInt8)) (s0 : Snap) (es : List Ev)
    (hs : ∀ s, Ev.change s ∈ es → Sound mem s ∧ (bytes s).length ≤ cap) :
    let w := W.run cap { file := f0, snap := s0 } es
    w.file = f0 ∨ load mem w.file = none ∨ ∃ s, Ev.change s ∈ es ∧ load mem w.file = some s := by
  intro w
  have h : Small f0 (fun s => Ev.change s ∈ es) w :=
    Small.run (fun s h => (hs s h).2) es (fun _ h => h) ⟨Or.inl rfl, nofun, nofun⟩
  rcases h.file with e | e | ⟨s, r, hm, e⟩
  · exact Or.inl e
  · exact Or.inr (Or.inl (by rw [e]; rfl))
  · exact Or.inr (Or.inr ⟨s, hm, by rw [e]; exact load_bytes (hs s hm).1 r⟩)

/-! ### Writes that are waited for -/

structure Alone (w : W) : Prop where
  idle : w.wait = none → w.jobs = []
  busy : ∀ t, w.wait = some t → (w.jobs = [] ∧ w.file = some (bytes w.snap)) ∨
    ∃ j, w.jobs = [j] ∧ j.id = t.job ∧ j.snap = w.snap ∧ j.pos < (bytes j.snap).length ∧
      (j.opened = false → j.pos = 0) ∧ (j.opened = true → w.file = some ((bytes j.snap).take j.pos))
  stored : w.wait = none → w.dirty = false → w.last ≠ none → w.file = some (bytes w.snap)
  again : w.wait ≠ none → w.dirty = true

theorem overlay_take (b : List UInt8) (p n : Nat) (h : p + n ≤ b.length) :
    overlay (b.take p) p ((b.drop p).take n) = b.take (p + n) := by
  have h1 : (b.take p).length = p := by rw [List.length_take]; omega
  have h2 : (b.take p).drop (p + ((b.drop p).take n).length) = [] := List.drop_eq_nil_of_le (by rw [h1]; omega)
  unfold overlay
  rw [List.take_take, Nat.min_self, h1, Nat.sub_self, List.replicate_zero, List.append_nil, h2, List.append_nil, List.take_add]

theorem Alone.step {cap : Nat} {w : W} (h : Alone w) (e : Ev) (he : e ≠ .cancel) : Alone (w.step cap e) := by
  cases e with
  | change s =>
    simp only [W.step]
    split
    · next hw =>
      have hw' : w.wait = none := by simpa using hw
      exact ⟨h.idle, fun t ht => (by rw [show w.wait = some t from ht] at hw'; cases hw'), fun _ hd => (by cases hd),
        fun hn => absurd hw' hn⟩
    · exact h
  | persist run force now interval =>
    simp only [W.step]
    split
    · next hc =>
      simp only [Bool.and_eq_true, Option.isNone_iff_eq_none] at hc
      refine ⟨nofun, fun t ht => Or.inr ?_, nofun, fun _ => hc.1.2⟩
      simp only [Option.some.injEq] at ht
      subst ht
      rw [h.idle hc.1.1]
      refine ⟨_, rfl, rfl, rfl, ?_, fun _ => rfl, nofun⟩
      have := bytes_pos w.snap
      show 0 < (bytes w.snap).length
      omega
    · exact h
  | cancel => exact absurd rfl he
  | resume =>
    simp only [W.step]
    split
    · next t ht =>
      split
      · next hj =>
        rcases h.busy t ht with ⟨h1, h2⟩ | ⟨j, h1, h2, _⟩
        · exact ⟨fun _ => h1, nofun, fun _ _ _ => h2, fun hn => absurd rfl hn⟩
        · simp [W.job, h1, h2] at hj
      · exact h
    · exact h
  | create id =>
    simp only [W.step]
    split
    · next j hj =>
      split
      · exact h
      · next ho =>
        obtain ⟨hm, hid⟩ := job_mem hj
        have hex : ∃ t, w.wait = some t := by
          cases hw : w.wait with
          | none => rw [h.idle hw] at hm; cases hm
          | some t => exact ⟨t, rfl⟩
        obtain ⟨t, hw⟩ := hex
        · rcases h.busy t hw with ⟨h1, _⟩ | ⟨k, h1, h2, h3, h4, h5, h6⟩
          · rw [h1] at hm; cases hm
          · rw [h1, List.mem_singleton] at hm
            subst hm
            have ho' : j.opened = false := by simpa using ho
            refine ⟨fun e => (by simp [hw] at e), fun t' ht' => Or.inr ?_, fun e => (by simp [hw] at e), h.again⟩
            rw [show w.wait = some t' from ht', Option.some.injEq] at hw
            subst hw
            refine ⟨{ j with opened := true }, by simp [W.setJob, h1], h2, h3, h4, nofun, fun _ => ?_⟩
            show some [] = some ((bytes j.snap).take j.pos)
            rw [h5 ho', List.take_zero]
    · exact h
  | write id n =>
    simp only [W.step]
    split
    · next j hj =>
      split
      · next hc =>
        simp only [Bool.and_eq_true, Bool.or_eq_true, decide_eq_true_eq] at hc
        obtain ⟨hm, hid⟩ := job_mem hj
        have hex : ∃ t, w.wait = some t := by
          cases hw : w.wait with
          | none => rw [h.idle hw] at hm; cases hm
          | some t => exact ⟨t, rfl⟩
        obtain ⟨t, hw⟩ := hex
        · rcases h.busy t hw with ⟨h1, _⟩ | ⟨k, h1, h2, h3, h4, h5, h6⟩
          · rw [h1] at hm; cases hm
          · rw [h1, List.mem_singleton] at hm
            subst hm
            have hf := h6 hc.1.1.1
            have hov : overlay (w.file.getD []) j.pos ((bytes j.snap |>.drop j.pos).take n) = (bytes j.snap).take (j.pos + n) := by
              rw [hf]; exact overlay_take _ _ _ hc.1.2
            rw [hov]
            refine ⟨fun e => (by simp [hw] at e), fun t' ht' => ?_, fun e => (by simp [hw] at e), h.again⟩
            rw [show w.wait = some t' from ht', Option.some.injEq] at hw
            subst hw
            by_cases hlast : j.pos + n = (bytes j.snap).length
            · refine Or.inl ⟨by simp [hlast, W.dropJob, h1, hid], ?_⟩
              show some ((bytes j.snap).take (j.pos + n)) = some (bytes w.snap)
              rw [hlast, List.take_length, h3]
            · refine Or.inr ⟨{ j with pos := j.pos + n }, by simp [hlast, W.setJob, h1], h2, h3, ?_, ?_, fun _ => rfl⟩
              · show j.pos + n < (bytes j.snap).length
                omega
              · intro e
                rw [show j.opened = false from e] at hc
                simp at hc
      · exact h
    · exact h

theorem Alone.run {cap : Nat} (es : List Ev) : ∀ {w : W}, Ev.cancel ∉ es → Alone w → Alone (w.run cap es) := by
  induction es with
  | nil => intro w _ h; exact h
  | cons e es ih =>
    intro w hn h
    exact ih (fun hm => hn (List.mem_cons_of_mem _ hm)) (h.step e fun e' => hn (by rw [e']; exact List.mem_cons_self ..))

/-- C119, for histories in which the engine always waits for its writes: there is one write at a time, and when the engine has written
and its state did not change since, the file holds exactly that state.  Missing: writes that are no longer waited for
(`C119_stale_violated`). -/
theorem C119_stored_partial (mem cap : Nat) (f0 : Option (List UInt8)) (s0 : Snap) (es : List Ev) (hc : Ev.cancel ∉ es) :
    let w := W.run cap { file := f0, snap := s0 } es
    w.jobs.length ≤ 1 ∧
    (w.wait = none → w.dirty = false → w.last ≠ none →
      w.file = some (bytes w.snap) ∧ (Sound mem w.snap → load mem w.file = some w.snap)) := by
  intro w
  have h : Alone w := Alone.run es hc ⟨fun _ => rfl, nofun, fun _ _ hl => absurd rfl hl, fun hn => absurd rfl hn⟩
  refine ⟨?_, fun h1 h2 h3 => ?_⟩
  · cases hw : w.wait with
    | none => rw [h.idle hw]; simp
    | some t =>
      rcases h.busy t hw with ⟨e, _⟩ | ⟨j, e, _⟩
      · rw [e]; simp
      · rw [e]; simp
  · have e := h.stored h1 h2 h3
    refine ⟨e, fun hs => ?_⟩
    have := load_bytes hs []
    rw [List.append_nil] at this
    rw [e]; exact this

/-! ### What goes wrong -/

/-- C119: a write that is dropped does not count: the state is still to be written, and the file and its writers are as before. -/
theorem C119_dropped (cap : Nat) (w : W) :
    (w.step cap .cancel).dirty = w.dirty ∧ (w.step cap .cancel).last = w.last ∧ (w.step cap .cancel).snap = w.snap ∧
    (w.step cap .cancel).file = w.file ∧ (w.step cap .cancel).jobs = w.jobs ∧
    (∀ t, w.wait = some t → ((w.step cap .cancel).wait = none ↔ t.run = true)) := by
  have : w.step cap .cancel = w ∨ w.step cap .cancel = { w with wait := none } := by
    simp only [W.step]
    split
    · split
      · exact .inr rfl
      · exact .inl rfl
    · exact .inl rfl
  refine ⟨?_, ?_, ?_, ?_, ?_, fun t ht => ?_⟩
  · rcases this with h | h <;> rw [h]
  · rcases this with h | h <;> rw [h]
  · rcases this with h | h <;> rw [h]
  · rcases this with h | h <;> rw [h]
  · rcases this with h | h <;> rw [h]
  · simp only [W.step, ht]
    cases hr : t.run <;> simp [ht]

def Ev.notCancel : Ev → Bool
  | .cancel => false
  | _ => true

/-- C119: a write that is not part of the run loop is waited for, whatever is cancelled meanwhile: if all writes are, there is one at a
time, and when the engine has written and its state did not change since, the file holds exactly that state. -/
theorem C119_forced (mem cap : Nat) (f0 : Option (List UInt8)) (s0 : Snap) (es : List Ev)
    (hr : ∀ run force now interval, Ev.persist run force now interval ∈ es → run = false) :
    let w := W.run cap { file := f0, snap := s0 } es
    w.jobs.length ≤ 1 ∧
    (w.wait = none → w.dirty = false → w.last ≠ none →
      w.file = some (bytes w.snap) ∧ (Sound mem w.snap → load mem w.file = some w.snap)) := by
  -- leaving out the cancellations does not change anything
  have key : ∀ (es : List Ev) (w : W), (∀ run force now interval, Ev.persist run force now interval ∈ es → run = false) →
      (∀ t, w.wait = some t → t.run = false) → W.run cap w es = W.run cap w (es.filter Ev.notCancel) := by
    intro es
    induction es with
    | nil => intro w _ _; rfl
    | cons e es ih =>
      intro w hr hw
      have hr' : ∀ run force now interval, Ev.persist run force now interval ∈ es → run = false :=
        fun r f n i h => hr r f n i (.tail _ h)
      by_cases hc : e = .cancel
      · subst hc
        have e0 : w.step cap .cancel = w := by
          simp only [W.step]
          split
          · next t ht => rw [hw t ht]; simp
          · rfl
        have : W.run cap w (.cancel :: es) = W.run cap w es := by
          show W.run cap (w.step cap .cancel) es = _
          rw [e0]
        rw [this, ih w hr' hw]
        rfl
      · rw [List.filter_cons_of_pos (by cases e <;> first | rfl | exact absurd rfl hc)]
        show W.run cap (w.step cap e) es = W.run cap (w.step cap e) _
        refine ih _ hr' ?_
        intro t ht
        cases e with
        | change s => simp only [W.step] at ht; split at ht <;> exact hw t ht
        | persist run force now interval =>
          simp only [W.step] at ht
          split at ht
          · simp only [Option.some.injEq] at ht
            subst ht
            exact hr _ _ _ _ (.head _)
          · exact hw t ht
        | cancel => exact absurd rfl hc
        | resume =>
          simp only [W.step] at ht
          split at ht
          · split at ht
            · cases ht
            · exact hw t ht
          · exact hw t ht
        | create id =>
          simp only [W.step] at ht
          split at ht
          · split at ht <;> exact hw t ht
          · exact hw t ht
        | write id n =>
          simp only [W.step] at ht
          split at ht
          · split at ht <;> exact hw t ht
          · exact hw t ht
  intro w
  have : w = W.run cap { file := f0, snap := s0 } (es.filter Ev.notCancel) := key es _ hr nofun
  rw [this]
  exact C119_stored_partial mem cap f0 s0 _ (fun h => by cases (List.mem_filter.1 h).2)

/-- A forced write during which the run loop is cancelled: it is waited for, and stored. -/
example (cap : Nat) (f0 : Option (List UInt8)) (s0 a : Snap) :
    let es : List Ev := [.change a, .persist false true 5 9, .cancel, .create 0, .cancel, .write 0 (bytes a).length, .resume]
    let w := W.run cap { file := f0, snap := s0 } es
    (∀ run force now interval, Ev.persist run force now interval ∈ es → run = false) ∧
    w.wait = none ∧ w.dirty = false ∧ w.last = some 5 ∧ w.file = some (bytes a) := by
  have h1 := bytes_pos a
  have e1 : 0 < (bytes a).length := by omega
  refine ⟨?_, ?_⟩
  · intro run force now interval h
    simp at h
    exact h.1
  · simp [W.run, W.step, due, W.job, W.setJob, W.dropJob, e1, overlay]

/-- The writer that was left alone gets to its write only after another one. -/
def overtaken (a b : Snap) (run : Bool) (now interval : Nat) : List Ev :=
  [.change a, .persist true false now interval, .create 0, .cancel, .change b, .persist run true now interval, .create 1,
    .write 1 (bytes b).length, .resume, .write 0 (bytes a).length]

/-- For all states `a`, `b` of the engine: the periodic write of `a` is left alone because a log arrives, which changes the state to `b`.  The
log is blocking, so the state is written and the caller is told that this was done; the engine considers `b` as stored.  Then the first write comes to
its end, and the next process goes on from `a`. -/
theorem C119_stale_violated (mem cap : Nat) (f0 : Option (List UInt8)) (s0 a b : Snap) (ha : Sound mem a) (now interval : Nat) :
    let w := W.run cap { file := f0, snap := s0 } (overtaken a b false now interval)
    w.snap = b ∧ w.dirty = false ∧ w.last = some now ∧ w.wait = none ∧ w.jobs.length = 0 ∧ load mem w.file = some a := by
  have h1 := bytes_pos a
  have h2 := bytes_pos b
  have e1 : 0 < (bytes a).length := by omega
  have e2 : 0 < (bytes b).length := by omega
  have hl := load_bytes ha ((bytes b).drop (bytes a).length)
  simp [overtaken, W.run, W.step, due, W.job, W.setJob, W.dropJob, e1, e2, overlay, hl]

/-- Both writers are between their two calls of `write`, and the later one goes on first. -/
def crossed (a b : Snap) (k : Nat) (now interval : Nat) : List Ev :=
  [.change a, .persist true false now interval, .create 0, .cancel, .change b, .persist false true now interval, .create 1,
    .write 0 k, .write 1 k, .write 1 ((bytes b).length - k), .resume, .write 0 ((bytes a).length - k)]

theorem le_length : ∀ k n, (le k n).length = k := by
  intro k
  induction k with
  | zero => intro n; rfl
  | succ k ih => intro n; simp [le, ih]

/-- The bytes behind the session. -/
def behind (s : Snap) : List UInt8 := ((pair (seq workflow) (pair (set cmpPending pending) (seq stream))).enc (s.workflows, s.pending, s.streams)).1

theorem bytes_eq (s : Snap) : bytes s = le 8 (strBytes s.session).length ++ strBytes s.session ++ behind s := rfl

/-- For all states `a`, `b` whose sessions have the same number of bytes, so many that the `BufWriter` writes them by a call of their own
(a session or, as well, any other part that comes to lie across its capacity): the writes of `a` and `b` can leave a file with the session of `b`
and the workflows of `a`, which the engine never had.  It is read without an error. -/
theorem C119_mixed_violated (mem cap : Nat) (f0 : Option (List UInt8)) (s0 a b : Snap)
    (hlen : (strBytes a.session).length = (strBytes b.session).length) (hcap : cap < (strBytes a.session).length)
    (hm : Sound mem { a with session := b.session }) (now interval : Nat) :
    let w := W.run cap { file := f0, snap := s0 } (crossed a b (8 + (strBytes a.session).length) now interval)
    w.snap = b ∧ w.dirty = false ∧ w.last = some now ∧ w.wait = none ∧ w.jobs.length = 0 ∧
    load mem w.file = some { a with session := b.session } := by
  have ha : (bytes a).length = 8 + (strBytes a.session).length + (behind a).length := by
    rw [bytes_eq, List.length_append, List.length_append, le_length]
  have hb : (bytes b).length = 8 + (strBytes a.session).length + (behind b).length := by
    rw [bytes_eq, List.length_append, List.length_append, le_length, hlen]
  have hp : ∀ s : Snap, 0 < (behind s).length := by
    intro s
    have : 8 ≤ (behind s).length := by
      show 8 ≤ (andThen (andThen (le 8 s.workflows.length, true) _) _).1.length
      simp only [andThen, if_true]
      split
      · rw [List.length_append, List.length_append, le_length]; omega
      · rw [List.length_append, le_length]; omega
    omega
  have hpa := hp a
  have hpb := hp b
  generalize hk : 8 + (strBytes a.session).length = k at *
  have c1 : cap < (bytes a).length := by omega
  have c2 : cap < (bytes b).length := by omega
  have c3 : k ≤ (bytes a).length := by omega
  have c4 : k ≤ (bytes b).length := by omega
  have c5 : ¬ k = (bytes a).length := by omega
  have c6 : ¬ k = (bytes b).length := by omega
  have c7 : 0 < k := by omega
  have c8 : k < (bytes a).length := by omega
  have c9 : k < (bytes b).length := by omega
  have d1 : 0 < (bytes a).length - k := by omega
  have d2 : 0 < (bytes b).length - k := by omega
  have d3 : k + ((bytes a).length - k) = (bytes a).length := by omega
  have d4 : k + ((bytes b).length - k) = (bytes b).length := by omega
  have hta : (bytes a).take k = le 8 (strBytes a.session).length ++ strBytes a.session := by
    rw [bytes_eq]
    exact List.take_left' (by rw [List.length_append, le_length]; omega)
  have htb : (bytes b).take k = le 8 (strBytes b.session).length ++ strBytes b.session := by
    rw [bytes_eq]
    exact List.take_left' (by rw [List.length_append, le_length]; omega)
  have hda : (bytes a).drop k = behind a := by
    rw [bytes_eq]
    exact List.drop_left' (by rw [List.length_append, le_length]; omega)
  have hdb : (bytes b).drop k = behind b := by
    rw [bytes_eq]
    exact List.drop_left' (by rw [List.length_append, le_length]; omega)
  have hov : overlay (overlay (overlay (overlay [] 0 ((bytes a).take k)) 0 ((bytes b).take k)) k
      (((bytes b).drop k).take ((bytes b).length - k))) k (((bytes a).drop k).take ((bytes a).length - k)) =
      bytes { a with session := b.session } ++ (behind b).drop (behind a).length := by
    have la : ((bytes a).take k).length = k := by rw [List.length_take]; omega
    have lb : ((bytes b).take k).length = k := by rw [List.length_take]; omega
    have ta : ((bytes a).drop k).take ((bytes a).length - k) = behind a := by
      rw [← hda]; exact List.take_of_length_le (by rw [List.length_drop]; omega)
    have tb : ((bytes b).drop k).take ((bytes b).length - k) = behind b := by
      rw [← hdb]; exact List.take_of_length_le (by rw [List.length_drop]; omega)
    rw [ta, tb]
    have o1 : overlay (overlay [] 0 ((bytes a).take k)) 0 ((bytes b).take k) = (bytes b).take k := by
      have : ((bytes a).take k).drop ((bytes b).take k).length = [] := List.drop_eq_nil_of_le (by omega)
      simp only [overlay, List.take_zero, Nat.zero_sub, List.replicate_zero, List.nil_append, Nat.zero_add, List.drop_nil, List.append_nil, this]
    have o2 : overlay ((bytes b).take k) k (behind b) = (bytes b).take k ++ behind b := by
      have h1 : ((bytes b).take k).drop (k + (behind b).length) = [] := List.drop_eq_nil_of_le (by omega)
      simp only [overlay, lb, h1, Nat.sub_self, List.replicate_zero, List.append_nil, List.take_take, Nat.min_self]
    have o3 : overlay ((bytes b).take k ++ behind b) k (behind a) = (bytes b).take k ++ behind a ++ (behind b).drop (behind a).length := by
      have h1 : ((bytes b).take k ++ behind b).take k = (bytes b).take k := List.take_left' lb
      have h2 : k - ((bytes b).take k ++ behind b).length = 0 := by rw [List.length_append]; omega
      have h3 : ((bytes b).take k ++ behind b).drop (k + (behind a).length) = (behind b).drop (behind a).length := by
        rw [← List.drop_drop, List.drop_left' lb]
      simp only [overlay, h1, h2, h3, List.replicate_zero, List.append_nil]
    rw [o1, o2, o3, htb]
    rfl
  have hl := load_bytes hm ((behind b).drop (behind a).length)
  rw [← hov] at hl
  simp [crossed, W.run, W.step, due, W.job, W.setJob, W.dropJob, c1, c2, c3, c4, c5, c6, c7, d1, d2, d3, d4]
  exact hl

def plain (session id : String) : Snap := ⟨session, [⟨id, []⟩], [], []⟩

theorem plain_sound (session id : String) (h1 : (strBytes session).length < 100) (h2 : (strBytes id).length < 100) : Sound 100 (plain session id) := by
  have e1 : (strBytes session).length ≤ 100 ∧ (strBytes session).length < 2 ^ 64 := by omega
  have e2 : (strBytes id).length ≤ 100 ∧ (strBytes id).length < 2 ^ 64 := by omega
  refine ⟨⟨e1, ⟨by simp [plain], ?_⟩, ⟨?_, by simp [plain], nofun⟩, by simp [plain], nofun⟩, ?_⟩
  · intro w hw
    simp only [plain, List.mem_singleton] at hw
    subst hw
    exact ⟨e2, by simp, nofun⟩
  · simp [plain, Sorted]
  · intro w hw r hr
    simp only [plain, List.mem_singleton] at hw
    subst hw
    cases hr

/-- A history without overlapping writes: one is waited for, one is not begun because the interval has not passed, one is on its way. -/
example :
    let a := plain "s" "x"
    let b := plain "s" "y"
    let es : List Ev := [.change a, .persist true false 5 10, .create 0, .write 0 (bytes a).length, .resume, .change b,
      .persist false false 7 10, .persist false true 8 10, .create 1]
    Ev.cancel ∉ es ∧ (∀ s, Ev.change s ∈ es → Sound 100 s ∧ (bytes s).length ≤ 8192) ∧
    (W.run 8192 { file := none, snap := plain "" "" } (es.take 5)).dirty = false ∧
    (W.run 8192 { file := none, snap := plain "" "" } (es.take 5)).last = some 5 ∧
    (W.run 8192 { file := none, snap := plain "" "" } (es.take 7)).jobs.length = 0 ∧
    (W.run 8192 { file := none, snap := plain "" "" } es).jobs.length = 1 := by
  refine ⟨by simp, ?_, by decide +kernel, by decide +kernel, by decide +kernel, by decide +kernel⟩
  intro s hs
  simp at hs
  rcases hs with rfl | rfl
  · exact ⟨plain_sound _ _ (by decide +kernel) (by decide +kernel), by decide +kernel⟩
  · exact ⟨plain_sound _ _ (by decide +kernel) (by decide +kernel), by decide +kernel⟩

/-- The two violations with small states and a small capacity: the file holds the old state, and a state that never was. -/
example :
    load 100 (W.run 8192 { file := none, snap := plain "" "" } (overtaken (plain "s" "x") (plain "s" "y") false 5 10)).file = some (plain "s" "x") ∧
    load 100 (W.run 4 { file := none, snap := plain "" "" } (crossed (plain "sssss" "x") (plain "ttttt" "y") 13 5 10)).file =
      some (plain "ttttt" "x") :=
  ⟨(C119_stale_violated 100 8192 none _ _ _ (plain_sound _ _ (by decide +kernel) (by decide +kernel)) 5 10).2.2.2.2.2,
   (C119_mixed_violated 100 4 none _ (plain "sssss" "x") (plain "ttttt" "y") (by decide +kernel) (by decide +kernel)
     (plain_sound _ _ (by decide +kernel) (by decide +kernel)) 5 10).2.2.2.2.2⟩

end Verif.Wf.Writers
