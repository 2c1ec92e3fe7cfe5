import Verif.Stats.Loss
import Verif.Stats.Same

/-! The properties of the metrics pipeline: C25, C26, C58, C59 (C27 is in CollProps, C28 in StoreProps). -/
namespace Verif.Stats

/-- The task takes `n` steps. -/
def steps (n : Nat) (e : Env) : List Op := List.replicate n (.task e)

/-! ### C25 -/

/-- C25: after any history — other threads at any point between two steps of the task, crashes, failing and damaged
files — every increment and every observation is in exactly one place: still in memory, held by the flusher task, in
a file on disk, in an acknowledged file, or in the list of what was lost. -/
theorem C25_conserved (ops : List Op) (id : Id) (x : Atom) :
    let s := St.init.run ops
    cnt id x s.issued = cnt id x s.cells + cnt id x s.pc.delta + cnt id x (allFiles s.files) +
      cnt id x (s.acked.map Prod.snd).flatten + cnt id x (s.dropped.map Prod.snd).flatten :=
  (run_inv ops).2.bal id x

theorem ord_run {κ own} (ops : List Op) (h : Along (orderly κ own) St.init ops) : Ord κ own (St.init.run ops) := by
  have := Along.inv (I := fun s => Ord κ own s ∧ Live s ∧ Names s ∧ Bal s) (P := orderly κ own)
    (fun s op hi ho => ⟨hi.1.apply hi.2.2.2 hi.2.2.1 hi.2.1 op ho, hi.2.1.apply op (orderly_calm ho), hi.2.2.1.apply op,
      hi.2.2.2.apply hi.2.2.1 op⟩) ops St.init ⟨Ord.init κ own, Live.init, Names.init, Bal.init⟩ h
  exact this.1

theorem cnt_filter_split (l : List (Reason × Content)) (q : Reason → Bool) (id : Id) (x : Atom) :
    cnt id x (l.map Prod.snd).flatten = cnt id x ((l.filter fun p => q p.1).map Prod.snd).flatten +
      cnt id x ((l.filter fun p => !q p.1).map Prod.snd).flatten := by
  induction l with
  | nil => rfl
  | cons e l ih =>
    rw [List.map_cons, List.flatten_cons, cnt_append, ih]
    cases hq : q e.1 <;> simp [hq, cnt_append] <;> omega

/-- C25, in part: in a history without crashes in which no handle is dropped while the flusher visits the collectors, no
name is used with two types or in both collectors, at least two files are allowed and only reading fails, everything
recorded is in memory, with the task, on disk or acknowledged, unless it was discarded because there were too many
files, because a file could not be read, or by damage from outside.  (What is missing: see the theorems below.) -/
theorem C25_lost_partial (κ : Id → Kind) (own : Id → Bool) (ops : List Op) (h : Along (orderly κ own) St.init ops) (id : Id) (x : Atom) :
    let s := St.init.run ops
    cnt id x s.issued = cnt id x s.cells + cnt id x s.pc.delta + cnt id x (allFiles s.files) +
      cnt id x (s.acked.map Prod.snd).flatten +
      cnt id x ((s.dropped.filter fun p => p.1 = .limit || p.1 = .unreadable || p.1 = .damage).map Prod.snd).flatten := by
  intro s
  have h1 := C25_conserved ops id x
  have h2 := (ord_run ops h).lost id x
  have h3 := cnt_filter_split s.dropped allowed id x
  have hq : (fun p : Reason × Content => decide (p.1 = .limit) || decide (p.1 = .unreadable) || decide (p.1 = .damage)) =
      fun p => allowed p.1 := by
    funext p
    cases p.1 <;> rfl
  rw [hq]
  dsimp only at h1
  unfold St.lostOther at h2
  have hs : s = St.init.run ops := rfl
  rw [← hs] at h1 h2
  omega

/-- An orderly history with something in every place: 5 of the counter acknowledged, 4 on disk, 2 in memory, the
histogram on disk. -/
def busyOps : List Op :=
  [.get true "a" .counter (some 9), .record 0 (.inc 5), .flush] ++ steps 12 {} ++
  [.upload] ++ steps 6 { now := 100 } ++ [.record 0 (.inc 4), .get false "h" .histogram none, .record 1 (.observe 7)] ++
  [.response true] ++ steps 6 { now := 100 } ++ [.flush] ++ steps 12 { now := 200, window := 10 } ++ [.record 0 (.inc 2)]

example :
    let s := St.init.run busyOps
    s.pc = .idle ∧ cnt "a" none s.issued = 11 ∧ cnt "a" none s.cells = 2 ∧ cnt "a" none (allFiles s.files) = 4 ∧
    cnt "a" none (s.acked.map Prod.snd).flatten = 5 ∧ cnt "h" (some 7) (allFiles s.files) = 1 ∧ s.uploads.length = 1 := by
  decide +kernel

/-- The hypothesis of `C25_lost_partial` as a computation. -/
def orderlyB (κ : Id → Kind) (own : Id → Bool) (s : St) : Op → Bool
  | .crash _ => false
  | .release _ => s.pc.visits == none
  | .get k id kind _ => kind == κ id && own id == k
  | .task e => 2 ≤ e.max && (match s.pc with
      | .initRead _ | .readBack _ | .upRead _ => true
      | _ => e.out == .ok)
  | _ => true

def alongB (P : St → Op → Bool) : St → List Op → Bool
  | _, [] => true
  | s, op :: ops => P s op && alongB P (s.apply op) ops

theorem along_of {P : St → Op → Prop} {Q : St → Op → Bool} (h : ∀ s op, Q s op = true → P s op) :
    ∀ (ops : List Op) (s : St), alongB Q s ops = true → Along P s ops := by
  intro ops
  induction ops with
  | nil => intros; trivial
  | cons op ops ih =>
    intro s ha
    unfold alongB at ha
    rw [Bool.and_eq_true] at ha
    exact ⟨h _ _ ha.1, ih _ ha.2⟩

theorem orderly_of {κ own} (s : St) (op : Op) (h : orderlyB κ own s op = true) : orderly κ own s op := by
  cases op with
  | task e =>
    unfold orderlyB at h
    unfold orderly
    rw [Bool.and_eq_true] at h
    refine ⟨of_decide_eq_true h.1, ?_⟩
    have h2 := h.2
    cases hp : s.pc <;> rw [hp] at h2 <;> first | trivial | exact (beq_iff_eq.1 h2)
  | get k id kind l =>
    unfold orderlyB at h
    rw [Bool.and_eq_true, beq_iff_eq, beq_iff_eq] at h
    exact h
  | release c => exact beq_iff_eq.1 h
  | crash b => cases h
  | _ => trivial

example : Along (orderly (fun id => if id = "h" then .histogram else .counter) (fun id => id == "a")) St.init busyOps :=
  along_of orderly_of _ _ (by decide +kernel)

/-- C25 does not hold without the condition on handles: an increment between `snap`, which finds nothing, and the test
for other references is lost if the handle is dropped in between (bd-client-stats/src/stats.rs:272-277). -/
theorem C25_race_violated :
    let s := St.init.run [.get true "a" .counter (some 9), .flush, .task {}, .task {}, .record 0 (.inc 5), .release 0, .task {}]
    cnt "a" none s.issued = 5 ∧ s.cells = [("a", .counter 0)] ∧ s.pc.delta = [] ∧ s.files = [] ∧
      s.dropped = [(.race, [("a", .counter 5)])] := by
  decide +kernel

/-- C25 does not hold for a name used in both collectors: one of the two values overwrites the other (a debug build
stops at the assertion, stats.rs:405-408). -/
theorem C25_shared_name_violated :
    let s := St.init.run ([.get false "a" .counter none, .record 0 (.inc 5), .get true "a" .counter (some 9), .record 1 (.inc 3), .flush]
      ++ steps 14 {})
    s.pc = .idle ∧ allFiles s.files = [("a", .counter 3)] ∧ cnt "a" none s.issued = 8 ∧ (.duplicate, [("a", .counter 5)]) ∈ s.dropped := by
  decide +kernel

/-- C25 does not hold for a name whose type changes after its metric was removed from the collector: what is recorded
next is dropped when it is merged with the file (stats.rs:187-207). -/
theorem C25_type_violated :
    let e : Env := { window := 10 }
    let s := St.init.run ([.get true "a" .counter (some 9), .record 0 (.inc 5), .release 0, .flush] ++ steps 14 e ++
      (.flush :: steps 14 e) ++ [.get true "a" .histogram (some 9), .record 1 (.observe 7), .flush] ++ steps 14 e)
    s.pc = .idle ∧ allFiles s.files = [("a", .counter 5)] ∧ cnt "a" (some 7) s.issued = 1 ∧
      (.typeClash, [("a", .hist (.inline [7]))]) ∈ s.dropped := by
  decide +kernel

/-- A discard for no reason: at the file limit, a flush with nothing to write deletes the oldest file all the same, and
then does not write the new one (file_manager.rs:258-261, 303-313). -/
theorem C25_empty_flush_discards :
    let e (n : Nat) : Env := { now := n, max := 2 }
    let s := St.init.run ([.get true "a" .counter (some 9), .record 0 (.inc 5), .flush] ++ steps 14 (e 1) ++ [.record 0 (.inc 3), .flush] ++ steps 14 (e 2))
    let t := s.run (.flush :: steps 14 (e 3))
    s.pc = .idle ∧ t.pc = .idle ∧ cnt "a" none (allFiles s.files) = 8 ∧ cnt "a" none (allFiles t.files) = 3 ∧
      (.limit, [("a", .counter 5)]) ∈ t.dropped ∧ t.idx.length = 1 := by
  decide +kernel

/-! ### C26 -/

theorem same_run (ops : List Op) (h : Along steady St.init ops) : Same (St.init.run ops) :=
  Along.inv (fun _ op hi ho => hi.apply op ho) ops St.init Same.init h

/-- C26, in part: in every history — crashes at any point, writes that leave unreadable files, files damaged or lost —
in which no write of the index that closes a file fails without effect (nor does deleting the oldest file on the way to
one), two uploads with the same identifier are the same: content and period.  (What is missing:
`C26_violated`.) -/
theorem C26_same_content_partial (ops : List Op) (h : Along steady St.init ops) :
    ∀ a ∈ (St.init.run ops).uploads, ∀ b ∈ (St.init.run ops).uploads, a.uuid = b.uuid →
      a.content = b.content ∧ a.start = b.start ∧ a.stop = b.stop := by
  intro a ha b hb e
  have := (same_run ops h).same a ha b hb e
  subst this
  exact ⟨rfl, rfl, rfl⟩

/-- C25, what the server gets, in part: in the same histories, a server that counts every identifier once never counts more than
was recorded — of no metric, and of no observation. -/
theorem C25_server_partial (ops : List Op) (h : Along steady St.init ops) (us : List Upload)
    (hn : (us.map Upload.uuid).Nodup) (hu : ∀ u ∈ us, u ∈ (St.init.run ops).uploads) (id : Id) (x : Atom) :
    cnt id x (us.map Upload.content).flatten ≤ cnt id x (St.init.run ops).issued := by
  have hall := Along.inv (I := fun s => Same s ∧ Names s ∧ Bal s ∧ Sent s) (P := steady)
    (fun s op hi ho => ⟨hi.1.apply op ho, hi.2.1.apply op, hi.2.2.1.apply hi.2.1 op, hi.2.2.2.apply hi.1 hi.2.2.1 op⟩)
    ops St.init ⟨Same.init, Names.init, Bal.init, Sent.init⟩ h
  obtain ⟨hs, _, hb, hsent⟩ := hall
  generalize St.init.run ops = s at hs hb hsent hu ⊢
  let q : Upload → Bool := fun u => match getFile u.uuid s.files with | some (some _) => true | _ => false
  have h1 := cnt_received_split us q id x
  have h2 := received_files hb.nodup (us.filter q) (hn.sublist (List.filter_sublist.map _)) (by
    intro u hu'
    obtain ⟨hm, hq⟩ := List.mem_filter.1 hu'
    dsimp only [q] at hq
    split at hq
    · rename_i f hf; exact ⟨f, hf, hs.file u (hu u hm) f hf⟩
    · cases hq) id x
  have h3 := hsent (us.filter fun u => !q u)
    ⟨hn.sublist (List.filter_sublist.map _), fun u hu' => hu u (List.mem_filter.1 hu').1⟩ (by
      intro u hu' f hf
      have := (List.mem_filter.1 hu').2
      dsimp only [q] at this
      rw [hf] at this; cases this) id x
  have h4 := hb.bal id x
  unfold St.accounted at h4
  unfold St.settled at h3
  show cnt id x (received us) ≤ _
  omega

def steadyB (s : St) : Op → Bool
  | .task e => match s.pc with
    | .delOldest _ => e.out == .ok
    | .writeIdx _ | .upWriteIdx _ => e.out != .fail
    | _ => true
  | _ => true

theorem steady_of (s : St) (op : Op) (h : steadyB s op = true) : steady s op := by
  cases op with
  | task e =>
    unfold steadyB at h
    unfold steady
    dsimp only at h ⊢
    cases hp : s.pc <;> rw [hp] at h <;> first | trivial | exact beq_iff_eq.1 h | exact bne_iff_ne.1 h
  | _ => trivial

/-- A history for C26: a file is uploaded twice, with a crash in between; more is recorded meanwhile. -/
def twiceOps : List Op :=
  [.get true "a" .counter (some 9), .record 0 (.inc 5), .flush] ++ steps 14 { window := 50 } ++
  [.upload] ++ steps 6 { window := 50 } ++ [.crash true, .get true "a" .counter (some 9), .record 0 (.inc 3), .flush] ++
  steps 14 { window := 50, now := 7 } ++ [.upload] ++ steps 8 { window := 50, now := 9 } ++ [.response true] ++ steps 20 { window := 50, now := 99 }

example : Along steady St.init twiceOps := along_of steady_of _ _ (by decide +kernel)

example : (St.init.run twiceOps).uploads =
    [⟨0, [("a", .counter 5)], 0, some 0⟩, ⟨0, [("a", .counter 5)], 0, some 0⟩, ⟨1, [("a", .counter 3)], 7, some 99⟩] := by
  decide +kernel

/-- C26 does not hold in general: writing the index fails when a file is closed for its upload.  The next upload finds the
file closed in memory and sends it; after a crash the file is open again, more is added to it, and it is sent
again under the same identifier (file_manager.rs:360-371). -/
theorem C26_violated :
    let e : Env := { window := 50 }
    let s := St.init.run ([.get true "a" .counter (some 9), .record 0 (.inc 5), .flush] ++ steps 14 e ++
      [.upload] ++ steps 2 e ++ [.task { e with out := .fail }, .upload] ++ steps 6 e ++
      [.crash false, .get true "a" .counter (some 9), .record 0 (.inc 3), .flush] ++ steps 14 e ++ [.upload] ++ steps 8 e)
    s.uploads = [⟨0, [("a", .counter 5)], 0, some 0⟩, ⟨0, [("a", .counter 8)], 0, some 0⟩] := by
  decide +kernel

/-! ### C58 -/

/-- C58: the index of files never has more entries than the highest limit there has been, in memory or on disk, after
any history. -/
theorem C58_bounded (M : Nat) (ops : List Op) (h : Along (maxAtMost M) St.init ops) :
    (St.init.run ops).idx.length ≤ M ∧ ∀ l, (St.init.run ops).dIndex = .good l → l.length ≤ M := by
  have := Along.inv (I := Short M) (fun _ op hi ho => hi.apply op ho) ops St.init
    ⟨Nat.zero_le _, (by intro l e; cases e)⟩ h
  exact ⟨this.mem, this.disk⟩

/-- The index in memory has at most `M` entries. -/
structure Flat (M : Nat) (s : St) : Prop where
  mem : s.idx.length ≤ M

theorem Flat.of {M : Nat} {s t : St} (h : Flat M s) (h1 : t.idx.length ≤ s.idx.length) : Flat M t :=
  ⟨Nat.le_trans h1 h.mem⟩
theorem Flat.writeIndex {M : Nat} {s : St} (h : Flat M s) (o : Out) : Flat M (s.writeIndex o) := by cases o <;> exact ⟨h.mem⟩
theorem Flat.fail {M : Nat} {s : St} (h : Flat M s) (c : Cont) : Flat M (s.fail c) := by cases c <;> exact ⟨h.mem⟩
theorem Flat.enter {M : Nat} {s : St} (h : Flat M s) (c : Cont) : Flat M (s.enter c) := by cases c <;> exact ⟨h.mem⟩
theorem Flat.merge {M : Nat} {s : St} (h : Flat M s) (f u ro old d) : Flat M (s.merge f u ro old d) := by
  unfold St.merge
  split
  · exact h.of (by simp [St.goto])
  · exact ⟨h.mem⟩
theorem Flat.start {M : Nat} {s : St} (h : Flat M s) (c : Cont) : Flat M (s.start c) := by
  unfold St.start
  split
  · exact h.enter c
  · exact ⟨h.mem⟩
  · exact ⟨h.mem⟩

theorem Flat.step {M : Nat} {s : St} (h : Flat M s) (e : Env) (he : e.max ≤ M) (hr : ∀ c, s.pc ≠ .initRead c) : Flat M (s.step e) := by
  unfold St.step
  generalize hpc : s.pc = pc
  unfold St.stepAt
  cases pc with
  | snap k todo d =>
    cases todo with
    | nil => dsimp only; split <;> exact h.of (Nat.le_refl _)
    | cons y t => dsimp only; split <;> (try split) <;> exact h.of (Nat.le_refl _)
  | check k i c t d => dsimp only; split <;> (try split) <;> cases k <;> exact h.of (Nat.le_refl _)
  | idle => exact h
  | dead => exact h
  | stopped => exact h
  | start c => exact h.start c
  | initRead c => exact absurd hpc (hr c)
  | initRm c =>
    dsimp only; split
    · exact ⟨h.mem⟩
    · exact h.fail c
  | initMk c =>
    dsimp only; split
    · refine Flat.enter ?_ c
      exact ⟨Nat.zero_le _⟩
    · exact h.fail c
  | decide d =>
    dsimp only; split
    · split
      · exact h.of (by simp [St.goto, closeLast_length])
      · rename_i hm
        refine ⟨?_⟩
        simp [St.goto, St.push, closeLast_length]; omega
    · exact h.of (Nat.le_refl _)
  | delOldest d =>
    dsimp only; split
    · exact h.of (Nat.le_refl _)
    · rename_i f rest hi
      split
      · exact h.of (by simp [St.goto, St.push, St.lose, hi])
      · exact h.fail _
  | writeIdx d =>
    dsimp only; split
    · split
      · exact (h.writeIndex _).merge _ _ _ _ _
      · exact h.fail _
    · exact (h.writeIndex _).fail _
  | readBack d =>
    dsimp only; split
    · exact h.of (Nat.le_refl _)
    · split <;> exact h.merge _ _ _ _ _
  | writeSnap n u ro old d =>
    dsimp only; split
    · exact h.of (Nat.le_refl _)
    · exact h.fail _
    · refine Flat.fail ?_ _
      exact h.of (Nat.le_refl _)
  | writeIdxEmpty => exact (h.writeIndex _).of (Nat.le_refl _)
  | upHead o =>
    dsimp only; split
    · exact h.of (Nat.le_refl _)
    · rename_i f rest hi
      split
      · exact h.of (Nat.le_refl _)
      · split
        · exact h.of (by simp [St.goto, hi])
        · exact h.of (Nat.le_refl _)
  | upWriteIdx o =>
    dsimp only; split <;> exact (h.writeIndex _).of (Nat.le_refl _)
  | upRead o => dsimp only; split <;> (try split) <;> (try split) <;> exact h.of (Nat.le_refl _)
  | upDel o =>
    dsimp only; split
    · exact h.of (Nat.le_refl _)
    · rename_i f rest hi
      split
      · exact h.of (by simp [St.goto, St.lose, hi])
      · exact h.of (Nat.le_refl _)
  | upDelIdx o =>
    dsimp only; split <;> exact (h.writeIndex _).of (Nat.le_refl _)
  | complete u => dsimp only; split <;> (try split) <;> exact h.of (Nat.le_refl _)
  | compDel u =>
    dsimp only; split
    · exact h.of (Nat.le_refl _)
    · rename_i f rest hi
      split
      · exact h.of (by simp [St.goto, hi])
      · exact h.of (Nat.le_refl _)
  | compIdx u => exact (h.writeIndex _).of (Nat.le_refl _)

/-- C58: at the limit, also a lowered one, the index never grows: every new file replaces an old one. -/
theorem C58_replaces (s : St) (e : Env) (h : e.max ≤ s.idx.length) (hr : ∀ c, s.pc ≠ .initRead c) :
    (s.step e).idx.length ≤ s.idx.length :=
  (Flat.step (M := s.idx.length) ⟨Nat.le_refl _⟩ e h hr).mem

/-- Three files at a limit of three; a lowered limit removes one file per new file. -/
def threeOps : List Op :=
  [.get true "a" .counter (some 9), .record 0 (.inc 5), .flush] ++ steps 14 { now := 1, max := 3 } ++
  [.record 0 (.inc 5), .flush] ++ steps 14 { now := 2, max := 3 } ++ [.record 0 (.inc 5), .flush] ++ steps 14 { now := 3, max := 3 }

example : Along (maxAtMost 3) St.init threeOps ∧ (St.init.run threeOps).idx.length = 3 ∧
    ((St.init.run threeOps).run ([.record 0 (.inc 1), .flush] ++ steps 14 { now := 4, max := 2 })).idx.length = 3 := by
  refine ⟨?_, by decide +kernel, by decide +kernel⟩
  simp [threeOps, steps, Along, maxAtMost, List.replicate]

/-! ### C59 -/

/-- C59, in part: the flusher task does not panic if at least two files are allowed and the directory can be removed and
created when the index is not usable; every other operation may fail at any time.  (What is missing: the theorems
below.) -/
theorem C59_no_panic_partial (ops : List Op)
    (h : Along (fun s op => match op with
      | .task e => 2 ≤ e.max ∧ (match s.pc with | .initRm _ | .initMk _ => e.out = .ok | _ => True)
      | _ => True) St.init ops) : (St.init.run ops).pc ≠ .dead := by
  have hc : Along calm St.init ops := by
    refine Along.mono ?_ ops St.init h
    intro s op ho
    cases op <;> exact ho
  have hl := Along.inv (I := Live) (fun _ op hi ho => hi.apply op ho) ops St.init Live.init hc
  intro e
  have := hl.need
  rw [e] at this
  exact this

example : (St.init.run twiceOps).pc = .idle := by decide +kernel

/-- C59 does not hold if no file is allowed: the very first flush panics (file_manager.rs:258-260). -/
theorem C59_zero_files_violated : (St.init.run (.flush :: steps 8 { max := 0 })).pc = .dead := by decide +kernel

/-- C59 does not hold if one file is allowed: it is under way to the server when an empty flush removes its entry, and the
acknowledgement finds no entry (file_manager.rs:413-417). -/
theorem C59_one_file_violated :
    (St.init.run ([.get true "a" .counter (some 9), .record 0 (.inc 5), .flush] ++ steps 14 { max := 1 } ++ [.upload] ++
      steps 6 { max := 1 } ++ (.flush :: steps 14 { max := 1, now := 9 }) ++ (.response true :: steps 8 { max := 1, now := 9 }))).pc = .dead := by
  decide +kernel

/-- C59 does not hold if the directory cannot be created: the first flush fails, the second one panics because the file
system was taken out for good (file_manager.rs:186-192). -/
theorem C59_init_violated :
    (St.init.run (.flush :: steps 6 { out := .fail } ++ (.flush :: steps 6 {}))).pc = .dead := by decide +kernel

end Verif.Stats
