import Verif.Buffer.Props
import Verif.Buffer.AggregateProps
import Verif.Buffer.WaitProps

/-
C111: what a lock on a ring buffer is good for (`LockHandle`, bd-buffer/src/buffer/mod.rs:184-189, 246-251; `new_consumer`,
bd-buffer/src/ring_buffer.rs:703-713).
-/
namespace Verif.Buffer

/-! ### The volatile buffer -/

theorem history_append (len : Nat) (mem : Mem) (ops ops' : List Op) :
    history len mem (ops ++ ops') = (history len mem ops).run ops' (((Vol.new len mem).run ops).1.run ops').2 := by
  exact trace_run_append ops ops' _ _

/-- No uncommitted grants: nothing but a new grant changes the grants. -/
theorem trace_settled {t : Trace} (h : ∀ g ∈ t.grants, g.committed = true) (op : Op) (o : Out) (hl : (t.step op o).grants.length = t.grants.length) :
    (t.step op o).grants = t.grants := by
  have ho : ∀ g ∈ t.grants, ∀ p, g.openBy p = false := by
    intro g hg p
    unfold Grant.openBy
    rw [h g hg]
    simp
  unfold Trace.step at hl ⊢
  split
  · simp at hl
  · apply (List.map_congr_left (g := id) ?_).trans (List.map_id _)
    intro g hg
    simp [ho g hg]
  · apply (List.map_congr_left (g := id) ?_).trans (List.map_id _)
    intro g hg
    simp [ho g hg]
  all_goals rfl

theorem locked_run (ops : List Op) (hu : Op.unlock ∉ ops) : ∀ {v : Vol} {f : Fifo} {U O : List Slot}, Sim v f U O → 0 < v.core.lockCount → ∀ t : Trace,
    (t.run ops (v.run ops).2).grants.length = t.grants.length ∧
    ((∀ g ∈ t.grants, g.committed = true) → (t.run ops (v.run ops).2).grants = t.grants) := by
  induction ops with
  | nil => intro v f U O _ _ t; exact ⟨rfl, fun _ => rfl⟩
  | cons op ops ih =>
    intro v f U O h hl t
    obtain ⟨b1, b2⟩ := vol_locked h op (fun e => hu (by rw [e]; simp)) hl t
    obtain ⟨U', O', h', _⟩ := h.step op
    obtain ⟨c1, c2⟩ := ih (fun hm => hu (List.mem_cons_of_mem _ hm)) h' b1 (t.step op (v.step op).2)
    refine ⟨c1.trans b2, fun hc => ?_⟩
    have e := trace_settled hc op _ b2
    exact (c2 (by rw [e]; exact hc)).trans e

theorem settled_of {v : Vol} {f : Fifo} {U O : List Slot} {t : Trace} {ids lost : List Nat} (h : Sim v f U O) (ht : TInv t f ids lost)
    (hw : v.hasWrite = false) : ∀ g ∈ t.grants, g.committed = true := by
  intro g hg
  cases hc : g.committed with
  | true => rfl
  | false =>
    have h1 := (held_iff ht g.owner).1 ⟨g, hg, rfl, hc⟩
    rw [← h.holds] at h1
    have : v.resv = [] := by
      unfold Vol.hasWrite at hw
      cases hr : v.resv with
      | nil => rfl
      | cons _ _ => rw [hr] at hw; cases hw
    unfold Vol.holds at h1
    rw [this] at h1
    cases h1

/-- C111 for the volatile buffer: while it is locked no reservation is granted; and when there is no reservation left, which is what
`await_reservations_drained` waits for, every record is committed and none is added or changed as long as the lock is held. -/
theorem C111_volatile (len : Nat) (mem : Mem) (hlen : len < 2 ^ 32) (ops ops' : List Op) (hu : Op.unlock ∉ ops')
    (hl : 0 < ((Vol.new len mem).run ops).1.core.lockCount) :
    (history len mem (ops ++ ops')).grants.length = (history len mem ops).grants.length ∧
    (((Vol.new len mem).run ops).1.resv = [] →
      (∀ g ∈ (history len mem ops).grants, g.committed = true) ∧ (history len mem (ops ++ ops')).grants = (history len mem ops).grants) := by
  obtain ⟨U, O, ids, lost, h, ht⟩ := run_inv len mem hlen ops
  obtain ⟨b1, b2⟩ := locked_run ops' hu h hl (history len mem ops)
  rw [history_append]
  refine ⟨b1, fun hr => ?_⟩
  have hc := settled_of h ht (by unfold Vol.hasWrite; rw [hr]; rfl)
  exact ⟨hc, b2 hc⟩

/-- C111, who waited for the reservations to be drained in the volatile buffer goes on when there are none. -/
theorem C111_drained (w : VWait) (op : VWOp) :
    ((w.step .await).2 = .unit (.ok ()) → w.vol.resv = []) ∧ (w.awaits ≠ 0 → (w.step op).1.awaits = 0 → (w.step op).1.vol.resv = []) := by
  constructor
  · intro h
    cases hr : w.vol.resv with
    | nil => rfl
    | cons x l =>
      have e : w.vol.hasWrite = true := by unfold Vol.hasWrite; rw [hr]; rfl
      simp only [VWait.step, e, if_true] at h
      cases h
  · intro h0 h1
    cases op with
    | await =>
      simp only [VWait.step] at h1
      split at h1
      · cases h1
      · exact absurd h1 h0
    | retry =>
      simp only [VWait.step] at h1
      split at h1
      · exact absurd h1 h0
      · exact absurd h1 h0
    | call op =>
      simp only [VWait.step] at h1 ⊢
      split at h1
      · exact absurd h1 h0
      · rename_i hg
        rw [if_neg hg]
        revert h1
        generalize w.vol.step op = r
        intro h1
        have key : ∀ op : Op, (if noReservations r.1 op r.2 then 0 else w.awaits) = 0 → r.1.resv = [] := by
          intro op h
          split at h
          · rename_i hn
            unfold noReservations at hn
            split at hn
            · exact List.isEmpty_iff.1 hn
            · cases hn
          · exact absurd h h0
        unfold VWait.after at h1 ⊢
        split at h1
        · exact absurd h1 h0
        · exact key _ h1

/-! ### The aggregate buffer -/

theorem ntrace_committed (crc : Bool) (ops : List NOp) : ∀ (os : List Out) (t : NTrace), t.committed <+: (t.run crc ops os).committed := by
  induction ops with
  | nil => intro os t; exact List.prefix_refl _
  | cons op ops ih =>
    intro os t
    cases os with
    | nil => exact List.prefix_refl _
    | cons o os =>
      refine List.IsPrefix.trans ?_ (ih os _)
      unfold NTrace.step
      split
      all_goals first | exact List.prefix_append _ _ | exact List.prefix_refl _

theorem Fifo.step_lost (f : Fifo) (op : Op) : f.lostRecords ≤ (f.step op).1.lostRecords := by
  cases op with
  | reserve p size =>
    simp only [Fifo.step, Fifo.reserve]
    split
    · exact Nat.le_refl _
    split
    · exact Nat.le_refl _
    split
    · exact Nat.le_refl _
    split
    · exact Nat.le_refl _
    · exact Nat.le_add_right _ _
  | write p off bytes => simp only [Fifo.step, Fifo.write]; split <;> exact Nat.le_refl _
  | commit p => simp only [Fifo.step, Fifo.commit]; split <;> exact Nat.le_refl _
  | registerConsumer => simp only [Fifo.step]; split <;> exact Nat.le_refl _
  | dropConsumer => exact Nat.le_refl _
  | startRead b =>
    simp only [Fifo.step, Fifo.startRead]
    split
    · exact Nat.le_refl _
    · exact Nat.le_refl _
    · split <;> exact Nat.le_refl _
  | finishRead => simp only [Fifo.step, Fifo.finishRead]; split <;> exact Nat.le_refl _
  | waitForDrain => simp only [Fifo.step]; split <;> exact Nat.le_refl _
  | lock => exact Nat.le_refl _
  | unlock => exact Nat.le_refl _
  | shutdown => simp only [Fifo.step]; split <;> exact Nat.le_refl _

theorem Fifo.run_lost (ops : List Op) : ∀ f : Fifo, f.lostRecords ≤ (f.run ops).1.lostRecords := by
  induction ops with
  | nil => intro f; exact Nat.le_refl _
  | cons op ops ih => intro f; exact Nat.le_trans (f.step_lost op) (ih _)

theorem agg_run_append (K : Crc) (ops ops' : List AOp) : ∀ a : Agg, a.run K (ops ++ ops') = (a.run K ops).run K ops' := by
  induction ops with
  | nil => intro a; rfl
  | cons op ops ih => intro a; exact ih _

/-- The number of overwritten records only grows. -/
theorem agg_lost {K : Crc} {len : Nat} {mem : Mem} {s0 : NV} (hlen : len < 2 ^ 32) {a : Agg} (h : AInv K len mem s0 a) (ops : List AOp) :
    a.vol.core.stats.recordsOverwritten ≤ (a.run K ops).vol.core.stats.recordsOverwritten := by
  have h' := AInv.run hlen ops h
  obtain ⟨⟨L, hL⟩, _⟩ := run_grows K ops a
  obtain ⟨U, O, ids, lost, hs, _⟩ := run_inv len mem hlen (a.vlog.map (·.1))
  obtain ⟨U', O', ids', lost', hs', _⟩ := run_inv len mem hlen ((a.run K ops).vlog.map (·.1))
  rw [h.log.vol] at hs
  rw [h'.log.vol, hL, List.map_append, List.map_append, fifo_run_append] at hs'
  rw [hs.lostR, hs'.lostR]
  exact Fifo.run_lost _ _

theorem trace_same (L : List (Op × Out)) : ∀ t : Trace, (∀ g ∈ t.grants, g.committed = true) →
    (t.run (L.map (·.1)) (L.map (·.2))).grants.length = t.grants.length → (t.run (L.map (·.1)) (L.map (·.2))).grants = t.grants := by
  induction L with
  | nil => intro t _ _; rfl
  | cons x L ih =>
    intro t hc hl
    have h1 := trace_run_grants [x] t
    have h2 : (t.step x.1 x.2).grants.length ≤ ((t.step x.1 x.2).run (L.map (·.1)) (L.map (·.2))).grants.length := trace_run_grants L (t.step x.1 x.2)
    have h1 : t.grants.length ≤ (t.step x.1 x.2).grants.length := h1
    have hl : ((t.step x.1 x.2).run (L.map (·.1)) (L.map (·.2))).grants.length = t.grants.length := hl
    have e := trace_settled hc x.1 x.2 (by omega)
    exact (ih _ (by rw [e]; exact hc) (by rw [e]; exact hl)).trans e

theorem agg_same {K : Crc} {len : Nat} {mem : Mem} {s0 : NV} (hlen : len < 2 ^ 32) {a : Agg} (h : AInv K len mem s0 a) (hl : 0 < a.vol.core.lockCount)
    (hc : ∀ g ∈ a.seen.grants, g.committed = true) (ops : List AOp) (hu : AOp.vol .unlock ∉ ops) : (a.run K ops).seen.grants = a.seen.grants := by
  have e := agg_locked hlen ops hu h hl
  obtain ⟨⟨L, hL⟩, _⟩ := run_grows K ops a
  have e2 : (a.run K ops).seen = a.seen.run (L.map (·.1)) (L.map (·.2)) := by
    unfold Agg.seen
    rw [hL, trace_logs]
  rw [e2] at e ⊢
  exact trace_same L _ hc e

theorem ntrace_logs (crc : Bool) (l l' : List (NOp × Out)) : ∀ t : NTrace,
    t.run crc ((l ++ l').map (·.1)) ((l ++ l').map (·.2)) = (t.run crc (l.map (·.1)) (l.map (·.2))).run crc (l'.map (·.1)) (l'.map (·.2)) := by
  induction l with
  | nil => intro t; rfl
  | cons x l ih => intro t; exact ih _

/-- C111 for the aggregate buffer, and so for the consumer of a trigger buffer: after `lock`, `await_reservations_drained` and a `flush` that returned, nothing is in
memory only, and as long as the lock is held nothing is added to the file and no record is written, whatever anybody does. -/
theorem C111_aggregate (K : Crc) (vlen nvSize : Nat) (hlen : vlen < 2 ^ 32) (mem : Mem) (s0 : NV) (a0 : Agg)
    (hp : s0.producer = none) (hk : s0.parked = none) (hn : Agg.new vlen nvSize mem s0 = some a0)
    (ops ops' ops'' : List AOp) (hu : AOp.vol .unlock ∉ ops' ++ ops'') :
    let a := a0.run K ops
    let a' := (a.step K (.vol .waitForDrain)).run K ops'
    let a'' := a'.run K ops''
    0 < a.vol.core.lockCount → a.vol.resv = [] → FlushReturned a a' →
    (∃ disk refused lost, Ledger a' disk refused lost [] ∧ Ledger a'' disk refused lost []) ∧
    a''.stored.committed = a'.stored.committed ∧ a''.seen.grants = a.seen.grants ∧ ∀ g ∈ a.seen.grants, g.committed = true := by
  intro a a' a'' hl hw hr
  have h := AInv.run hlen ops (AInv.init K vlen nvSize mem s0 a0 hn hp hk)
  have h' : AInv K vlen mem s0 a' := AInv.run hlen ops' (h.step hlen (.vol .waitForDrain))
  have h'' : AInv K vlen mem s0 a'' := AInv.run hlen ops'' h'
  have hc : ∀ g ∈ a.seen.grants, g.committed = true := by
    obtain ⟨U, O, ids, lost, hs, ht⟩ := run_inv vlen mem hlen (a.vlog.map (·.1))
    rw [← h.log.seen] at ht
    rw [h.log.vol] at hs
    exact settled_of hs ht (by unfold Vol.hasWrite; rw [hw]; rfl)
  have run2 : a'' = (a.step K (.vol .waitForDrain)).run K (ops' ++ ops'') := by
    rw [agg_run_append]
  have hu1 : AOp.vol .unlock ∉ .vol .waitForDrain :: ops' := by
    intro hm
    rcases List.mem_cons.1 hm with e | hm
    · cases e
    · exact hu (List.mem_append_left _ hm)
  have hu2 : AOp.vol .unlock ∉ .vol .waitForDrain :: (ops' ++ ops'') := by
    intro hm
    rcases List.mem_cons.1 hm with e | hm
    · cases e
    · exact hu hm
  have g1 : a'.seen.grants = a.seen.grants := agg_same hlen h hl hc (.vol .waitForDrain :: ops') hu1
  have g2 : a''.seen.grants = a.seen.grants := by
    rw [run2]
    exact agg_same hlen h hl hc (.vol .waitForDrain :: (ops' ++ ops'')) hu2
  obtain ⟨disk, refused, lost, hd⟩ : ∃ disk refused lost, Ledger a' disk refused lost [] :=
    C09_shutdown K vlen nvSize hlen mem s0 a0 hp hk hn ops ops' (fun hm => hu (List.mem_append_left _ hm)) hl hc hr
  have hr2 : FlushReturned a a'' := by
    rcases hr with hr | ⟨x, hx, hx2⟩
    · exact Or.inl hr
    · refine Or.inr ⟨x, ?_, hx2⟩
      obtain ⟨⟨L, hL⟩, _⟩ := run_grows K ops'' a'
      rw [show a''.vlog = a'.vlog ++ L from hL, List.drop_append]
      exact List.mem_append_left _ hx
  obtain ⟨disk2, refused2, lost2, hd2⟩ := C09_shutdown K vlen nvSize hlen mem s0 a0 hp hk hn ops (ops' ++ ops'') hu hl hc (by rw [← run2]; exact hr2)
  rw [← run2] at hd2
  have n1 := hd.all.length_eq
  have n2 := hd2.all.length_eq
  rw [g1] at n1
  rw [g2] at n2
  simp only [List.append_nil, List.length_append, List.length_range] at n1 n2
  have c1 := hd.copied.length_eq
  have c2 := hd2.copied.length_eq
  have d1 := hd.drops
  have d2 := hd2.drops
  have o1 := hd.overwritten
  have o2 := hd2.overwritten
  obtain ⟨_, ⟨L, hL⟩⟩ := run_grows K ops'' a'
  have m1 : a'.stored.committed <+: a''.stored.committed := by
    unfold Agg.stored
    rw [h''.log.crc, h'.log.crc, show a''.nlog = a'.nlog ++ L from hL, ntrace_logs]
    exact ntrace_committed _ _ _ _
  have m2 : a'.dropped ≤ a''.dropped := by
    unfold Agg.dropped
    rw [show a''.nlog = a'.nlog ++ L from hL, List.filter_append, List.length_append]
    exact Nat.le_add_right _ _
  have m3 : a'.vol.core.stats.recordsOverwritten ≤ a''.vol.core.stats.recordsOverwritten := agg_lost hlen h' ops''
  have m4 := m1.length_le
  have e1 : a''.stored.committed = a'.stored.committed := (m1.eq_of_length (by omega)).symm
  refine ⟨⟨disk, refused, lost, hd, ?_⟩, e1, g2, hc⟩
  refine ⟨hd.order, ?_, by omega, by omega, ?_, hd.oldest⟩
  · rw [e1]
    refine hd.copied.imp ?_
    intro x i hx
    unfold Copied at hx ⊢
    rw [g2, ← g1]
    exact hx
  · rw [g2, ← g1]
    exact hd.all

/-- The same for what the readers get, if the file is new and does not overwrite: while the lock is held they get exactly the records that were in the file when the
flush returned, in order and with the bytes stored, and what they did not take yet is still there. -/
theorem C111_consumer (K : Crc) (vlen nlen : Nat) (hlen : vlen < 2 ^ 32) (hnlen : nlen < 2 ^ 32) (mem : Mem)
    (crc : Bool) (a0 : Agg) (hn : Agg.new vlen (nlen + 40) mem (NV.new K nlen crc false true) = some a0)
    (ops ops' ops'' : List AOp) (hu : AOp.vol .unlock ∉ ops' ++ ops'') :
    let a := a0.run K ops
    let a' := (a.step K (.vol .waitForDrain)).run K ops'
    let a'' := a'.run K ops''
    0 < a.vol.core.lockCount → a.vol.resv = [] → FlushReturned a a' →
    NoZero K (NV.new K nlen crc false true) (a''.nlog.map (·.1)) → a''.stored.calm = true →
    storesAll (a'.stored.committed.take a''.stored.taken.length) a''.stored.taken ∧
    (a''.stored.reading = none → storesAll (a'.stored.committed.drop a''.stored.taken.length) ((a''.nv.unread K).map (·.2))) := by
  intro a a' a'' hl hw hr hz hc
  obtain ⟨_, he, _⟩ := C111_aggregate K vlen (nlen + 40) hlen mem _ a0 rfl rfl hn ops ops' ops'' hu hl hw hr
  have h : AInv K vlen mem (NV.new K nlen crc false true) a'' :=
    AInv.run hlen ops'' (AInv.run hlen ops' ((AInv.run hlen ops (AInv.init K vlen (nlen + 40) mem _ a0 hn rfl rfl)).step hlen (.vol .waitForDrain)))
  have e : a''.stored = nvHistory K nlen crc false true (a''.nlog.map (·.1)) := by
    unfold Agg.stored nvHistory
    rw [h.log.crc, h.log.nv]
    rfl
  have e2 : a''.nv = nvAfter K nlen crc false true (a''.nlog.map (·.1)) := by
    unfold nvAfter
    rw [h.log.nv]
  obtain ⟨_, b2, b3, _⟩ := C05_never_loses K nlen hnlen crc true (a''.nlog.map (·.1)) hz (by rw [← e]; exact hc)
  rw [← e] at b2 b3
  rw [← e2] at b3
  rw [show a''.stored.committed = a'.stored.committed from he] at b2 b3
  exact ⟨b2, b3⟩

/-! ### A flush under the lock returns -/

/-- The calls of the flush thread do not touch the consumer of the file. -/
theorem thread_consumer (K : Crc) (s : NV) (op : NOp) (h : op.byThread = true) : (s.step K op).1.consumer = s.consumer := by
  unfold NV.step
  split
  · rfl
  · cases op with
    | registerProducer => dsimp only [NV.step']; split <;> rfl
    | dropProducer => rfl
    | reserve size block => exact (reserve_quiet K s size block).con
    | resume =>
      dsimp only [NV.step', NV.resume]
      split
      · rfl
      · split
        · rfl
        · split
          · exact (passReader_quiet K s _ _ _).con
          · exact (takeSpace_quiet K s _ _ _).con
    | write off bytes =>
      dsimp only [NV.step', NV.write]
      split
      · split <;> rfl
      · rfl
    | commit => dsimp only [NV.step', NV.commit]; split <;> rfl
    | _ => cases h

theorem takeSpace_overwrite (K : Crc) (s : NV) (t : Temp) (n : Nat) (b : Bool) (ho : s.core.overwrite = true) : (s.takeSpace K t n b).2 ≠ .blocked := by
  have := advanceForWrite_overwrite (s.hasRead || s.hasWrite) t b s.core.advanceFuel s.core ho
  unfold NV.takeSpace
  split
  · nofun
  · nofun
  · rename_i c heq
    rw [heq] at this
    exact absurd rfl this

theorem passReader_overwrite (K : Crc) (s : NV) (t : Temp) (n : Nat) (b : Bool) (ho : s.core.overwrite = true) (hr : s.readRange = none) :
    (s.passReader K t n b).2 ≠ .blocked := by
  unfold NV.passReader
  rw [if_neg (by unfold NV.readHit; rw [hr]; simp)]
  exact takeSpace_overwrite K s t n b ho

/-- In a file that overwrites the flush thread does not have to wait unless a record is being read. -/
theorem reserve_overwrite (K : Crc) (s : NV) (ho : s.core.overwrite = true) (hr : s.readRange = none) (n : Nat) :
    (s.step K (.reserve n true)).2 ≠ .slice .blocked ∧ (s.step K .resume).2 ≠ .slice .blocked := by
  constructor
  · unfold NV.step
    split
    · nofun
    · dsimp only [NV.step', NV.reserve]
      split
      · nofun
      · nofun
      · have hf := fixed_startReserve s.core n
        split
        · nofun
        · rename_i c actual heq
          rw [heq] at hf
          have := passReader_overwrite K { s with core := c } (c.calcNextWriteStart actual) n true
            ((congrArg (fun x => x.2.2.1) hf).trans ho) hr
          simpa using this
  · unfold NV.step
    split
    · nofun
    · dsimp only [NV.step', NV.resume]
      split
      · nofun
      · split
        · nofun
        · split
          · simpa using passReader_overwrite K s _ _ _ ho hr
          · simpa using takeSpace_overwrite K s _ _ _ ho

/-- How far the flush thread is from finishing its record. -/
def Stage.rank : Stage → Nat
  | .spawned => 8
  | .registered => 7
  | .loop => 6
  | .have _ => 5
  | .asleep _ => 4
  | .filling _ => 3
  | .filled _ => 2
  | .finishing _ => 1
  | _ => 0

/-- Everything in memory is committed and somebody waits for one of the records to leave. -/
structure Draining (a : Agg) (f : Fifo) (x : Nat) : Prop where
  sim : ∃ U O, Sim a.vol f U O
  com : ∀ s ∈ f.slots, s.committed = true
  tgt : f.drain = some x
  mem : ∃ s ∈ f.slots, s.start = x
  ow : a.nv.core.overwrite = true
  idle : a.nv.readRange = none
  flag : a.flag = false
  locked : 0 < f.locks

def woke : Op × Out → Prop := fun y => y.2 = .finished (.ok true)

theorem takeWhile_all {l : List Slot} (h : ∀ s ∈ l, s.committed = true) : l.takeWhile (·.committed) = l := by
  induction l with
  | nil => rfl
  | cons s l ih =>
    rw [List.takeWhile_cons, if_pos (h s (by simp)), ih (fun t ht => h t (List.mem_cons_of_mem _ ht))]

/-- One step of the flush thread. -/
theorem Draining.thread {K : Crc} {a : Agg} {f : Fifo} {x : Nat} (h : Draining a f x) (hout : a.stage.out = false) (hp : a.stage ≠ .panicked)
    (hout' : (a.thread K).stage.out = false) (hp' : (a.thread K).stage ≠ .panicked) :
    (∃ y ∈ (a.thread K).vlog.drop a.vlog.length, woke y) ∨
    ∃ f', Draining (a.thread K) f' x ∧ 8 * f'.slots.length + (a.thread K).stage.rank < 8 * f.slots.length + a.stage.rank := by
  obtain ⟨⟨U, O, hsim⟩, hcom, htgt, ⟨s, hs, hsx⟩, how, hidle, hflag, hlk⟩ := h
  -- a call on the memory part that leaves the slots alone
  have vol : ∀ (op : Op) (st : Stage), op ≠ .unlock → (f.step op).1.slots = f.slots → (f.step op).1.drain = f.drain → st.rank < a.stage.rank →
      ∃ f', Draining ((a.onVol op).1.goto st) f' x ∧ 8 * f'.slots.length + ((a.onVol op).1.goto st).stage.rank < 8 * f.slots.length + a.stage.rank := by
    intro op st h0 h1 h2 h3
    obtain ⟨U', O', h', _⟩ := hsim.step op
    refine ⟨(f.step op).1, ⟨⟨U', O', h'⟩, by rw [h1]; exact hcom, h2.trans htgt, ⟨s, by rw [h1]; exact hs, hsx⟩, how, hidle, hflag, (f.step_locked op h0 hlk).1⟩, ?_⟩
    rw [h1]
    show _ + st.rank < _
    omega
  -- a call on the disk part
  have nv : ∀ (op : NOp) (st : Stage), op.byThread = true → st.rank < a.stage.rank →
      ∃ f', Draining ((a.onNV K op).1.goto st) f' x ∧ 8 * f'.slots.length + ((a.onNV K op).1.goto st).stage.rank < 8 * f.slots.length + a.stage.rank := by
    intro op st h1 h3
    refine ⟨f, ⟨⟨U, O, hsim⟩, hcom, htgt, ⟨s, hs, hsx⟩, ?_, ?_, hflag, hlk⟩, ?_⟩
    · exact (congrArg (fun c => c.2.2.1) (thread_fixed K a.nv op h1).1).trans how
    · show (a.nv.step K op).1.readRange = none
      unfold NV.readRange
      rw [thread_consumer K a.nv op h1]
      exact hidle
    · show _ + st.rank < _
      omega
  have fst : ∀ {z : Agg × Out} {b : Agg} {o : Out}, z = (b, o) → b = z.1 := by
    intro z b o e; rw [e]
  cases hst : a.stage with
  | spawned =>
    rw [hst] at vol nv
    unfold Agg.thread at hp' ⊢
    rw [hst] at hp' ⊢
    dsimp only at hp' ⊢
    split at hp'
    · rename_i e
      rw [fst e]
      refine Or.inr (vol .registerConsumer .registered nofun ?_ ?_ (by decide))
      · simp only [Fifo.step]; split <;> rfl
      · simp only [Fifo.step]; split <;> rfl
    · exact absurd rfl hp'
  | registered =>
    rw [hst] at vol nv
    unfold Agg.thread at hp' ⊢
    rw [hst] at hp' ⊢
    dsimp only at hp' ⊢
    split at hp'
    · rename_i e
      rw [fst e]
      exact Or.inr (nv .registerProducer .loop rfl (by decide))
    · exact absurd rfl hp'
  | loop =>
    rw [hst] at vol nv
    unfold Agg.thread at hp' hout' ⊢
    rw [hst] at hp' hout' ⊢
    dsimp only at hp' hout' ⊢
    rw [if_neg (by simp [hflag])] at hout' ⊢
    split at hout'
    · rename_i x' e
      rw [fst e]
      refine Or.inr (vol (.startRead true) (.have x'.1) nofun ?_ ?_ (by show 5 < 6; decide))
      · simp only [Fifo.step, Fifo.startRead]
        split
        · rfl
        · rfl
        · split <;> rfl
      · simp only [Fifo.step, Fifo.startRead]
        split
        · rfl
        · rfl
        · split <;> rfl
    · rename_i e
      exfalso
      obtain ⟨U', O', h', ha⟩ := hsim.step (.startRead true)
      have eo : (a.vol.step (.startRead true)).2 = .record .blocked := by
        have := congrArg Prod.snd e
        exact this
      rw [eo] at ha
      have hv : f.visible = f.slots := takeWhile_all hcom
      simp only [Fifo.step, Fifo.startRead] at ha
      cases hc : f.consumer with
      | none => rw [hc] at ha; exact ha
      | some b =>
        cases b with
        | true => rw [hc] at ha; exact ha
        | false =>
          rw [hc, hv] at ha
          cases hl : f.slots with
          | nil => rw [hl] at hs; cases hs
          | cons y l => rw [hl] at ha; exact ha
    · cases hout'
  | «have» r =>
    rw [hst] at vol nv
    have hb := (reserve_overwrite K a.nv how hidle r.size).1
    unfold Agg.thread at hp' hout' ⊢
    rw [hst] at hp' hout' ⊢
    dsimp only at hp' hout' ⊢
    refine Or.inr (nv (.reserve r.size true) _ rfl ?_)
    revert hp' hout' hb
    show (afterReserve r (a.nv.step K (.reserve r.size true)).2).out = false → afterReserve r (a.nv.step K (.reserve r.size true)).2 ≠ .panicked → _ →
      (afterReserve r (a.nv.step K (.reserve r.size true)).2).rank < _
    generalize (a.nv.step K (.reserve r.size true)).2 = o
    intro h1 h2 hb
    have h3 := And.intro h1 h2
    unfold afterReserve at h3 ⊢
    split at h3
    · show 3 < 5; decide
    · exact absurd rfl hb
    · show 1 < 5; decide
    · cases h3.1
    · exact absurd rfl h3.2
  | asleep r =>
    rw [hst] at vol nv
    have hb := (reserve_overwrite K a.nv how hidle r.size).2
    unfold Agg.thread at hp' hout' ⊢
    rw [hst] at hp' hout' ⊢
    dsimp only at hp' hout' ⊢
    refine Or.inr (nv .resume _ rfl ?_)
    revert hp' hout' hb
    show (afterReserve r (a.nv.step K .resume).2).out = false → afterReserve r (a.nv.step K .resume).2 ≠ .panicked → _ →
      (afterReserve r (a.nv.step K .resume).2).rank < _
    generalize (a.nv.step K .resume).2 = o
    intro h1 h2 hb
    have h3 := And.intro h1 h2
    unfold afterReserve at h3 ⊢
    split at h3
    · show 3 < 4; decide
    · exact absurd rfl hb
    · show 1 < 4; decide
    · cases h3.1
    · exact absurd rfl h3.2
  | filling r =>
    rw [hst] at vol nv
    unfold Agg.thread at hp' ⊢
    rw [hst] at hp' ⊢
    dsimp only at hp' ⊢
    split at hp'
    · rename_i e
      rw [fst e]
      exact Or.inr (nv _ (.filled r) rfl (by show 2 < 3; decide))
    · exact absurd rfl hp'
  | filled r =>
    rw [hst] at vol nv
    unfold Agg.thread at hp' ⊢
    rw [hst] at hp' ⊢
    dsimp only at hp' ⊢
    split at hp'
    · rename_i e
      rw [fst e]
      exact Or.inr (nv .commit (.finishing r) rfl (by show 1 < 2; decide))
    · exact absurd rfl hp'
  | finishing r =>
    rw [hst] at vol nv
    unfold Agg.thread at hp' ⊢
    rw [hst] at hp' ⊢
    dsimp only at hp' ⊢
    split at hp'
    · rename_i w e
      have eo : (a.vol.step .finishRead).2 = .finished (.ok w) := congrArg Prod.snd e
      rw [fst e]
      obtain ⟨U', O', h', ha⟩ := hsim.step .finishRead
      rw [eo] at ha
      have hfc : f.consumer = some true := by
        simp only [Fifo.step, Fifo.finishRead] at ha
        cases hc : f.consumer with
        | none => rw [hc] at ha; cases ha
        | some b =>
          cases b with
          | true => rfl
          | false => rw [hc] at ha; cases ha
      have hstep : f.step .finishRead = (
          { f with
            slots := f.slots.tail
            consumer := some false
            drain := if (f.drain.isSome && f.drain == (f.slots.head?.map (·.start))) then none else f.drain },
          .finished (.ok (f.drain.isSome && f.drain == (f.slots.head?.map (·.start))))) := by
        simp only [Fifo.step, Fifo.finishRead, hfc]
      rw [hstep] at h' ha
      cases hl : f.slots with
      | nil => rw [hl] at hs; cases hs
      | cons y l =>
        by_cases hy : y.start = x
        · left
          have hw : w = true := by
            simp only [Out.agrees] at ha
            rw [hl, htgt] at ha
            simp only [Option.isSome_some, Bool.true_and, List.head?_cons, Option.map_some, Res.ok.injEq] at ha
            rw [ha, hy]
            simp
          subst hw
          refine ⟨(.finishRead, .finished (.ok true)), ?_, rfl⟩
          show _ ∈ (a.vlog ++ [(Op.finishRead, (a.vol.step .finishRead).2)]).drop a.vlog.length
          rw [List.drop_left, eo]
          simp
        · right
          have hne : (f.drain.isSome && f.drain == (f.slots.head?.map (·.start))) = false := by
            rw [hl, htgt]
            simp only [Option.isSome_some, Bool.true_and, List.head?_cons, Option.map_some]
            simpa using fun e => hy e.symm
          rw [hne] at h'
          refine ⟨_, ⟨⟨U', O', h'⟩, ?_, ?_, ?_, how, hidle, hflag, hlk⟩, ?_⟩
          · intro z hz
            exact hcom z (List.mem_of_mem_tail hz)
          · exact htgt
          · refine ⟨s, ?_, hsx⟩
            show s ∈ f.slots.tail
            rw [hl] at hs ⊢
            rcases List.mem_cons.1 hs with rfl | hs
            · exact absurd hsx hy
            · exact hs
          · show 8 * f.slots.tail.length + 6 < 8 * (y :: l).length + 1
            rw [hl]
            simp only [List.tail_cons, List.length_cons]
            omega
    · exact absurd rfl hp'
  | leaving => rw [hst] at hout; cases hout
  | left => rw [hst] at hout; cases hout
  | dead => rw [hst] at hout; cases hout
  | panicked => exact absurd hst hp

/-- Steps that others make while the flush waits: anything but unlocking, stopping the thread, altering the file and starting to read from it. -/
def AOp.aside : AOp → Bool
  | .vol .unlock | .stop | .nv (.alter ..) | .nv (.startRead _) | .nv (.cursorRead _) | .nv .registerCursor => false
  | _ => true

/-- A step of somebody else. -/
theorem Draining.other {K : Crc} {a : Agg} {f : Fifo} {x : Nat} (h : Draining a f x) (op : AOp) (ha : op.aside = true) (ht : op ≠ .thread) :
    ∃ f' x', Draining (a.step K op) f' x' ∧ f'.slots = f.slots ∧ (a.step K op).stage = a.stage := by
  have h0 := h
  obtain ⟨⟨U, O, hsim⟩, hcom, htgt, ⟨s, hs, hsx⟩, how, hidle, hflag, hlk⟩ := h
  cases op with
  | thread => exact absurd rfl ht
  | stop => cases ha
  | vol op =>
    dsimp only [Agg.step]
    split
    · rename_i hby
      rw [hflag] at hby
      obtain ⟨U', O', h', _⟩ := hsim.step op
      have hne : op ≠ .unlock := fun e => by rw [e] at ha; cases ha
      have hno : ∀ p, f.slots.any (fun s => s.owner == p && !s.committed) = false := by
        intro p
        rw [List.any_eq_false]
        intro z hz
        simp [hcom z hz]
      have key : (f.step op).1.slots = f.slots ∧ ((f.step op).1.drain = f.drain ∨ ∃ z ∈ f.slots, (f.step op).1.drain = some z.start) := by
        cases op with
        | reserve p size =>
          simp only [Fifo.step, Fifo.reserve, hno p, Bool.false_eq_true, if_false, if_pos hlk]
          exact ⟨rfl, Or.inl rfl⟩
        | write p off bytes =>
          have : f.slots.any (fun s => s.owner == p && !s.committed && decide (off + bytes.length ≤ s.size)) = false := by
            rw [List.any_eq_false]
            intro z hz
            simp [hcom z hz]
          simp only [Fifo.step, Fifo.write, this, Bool.false_eq_true, if_false]
          exact ⟨trivial, Or.inl trivial⟩
        | commit p =>
          simp only [Fifo.step, Fifo.commit, hno p, Bool.false_eq_true, if_false]
          exact ⟨trivial, Or.inl trivial⟩
        | waitForDrain =>
          simp only [Fifo.step]
          split
          · rename_i z hz
            exact ⟨rfl, Or.inr ⟨z, (List.takeWhile_sublist _).subset (List.mem_of_getLast? hz), rfl⟩⟩
          · exact ⟨rfl, Or.inl rfl⟩
        | lock => exact ⟨rfl, Or.inl rfl⟩
        | _ => first | (cases ha; done) | (cases hby; done) | exact absurd rfl hne
      obtain ⟨k1, k2⟩ := key
      rcases k2 with k2 | ⟨z, hz, k2⟩
      · exact ⟨(f.step op).1, x, ⟨⟨U', O', h'⟩, by rw [k1]; exact hcom, k2.trans htgt, ⟨s, by rw [k1]; exact hs, hsx⟩, how, hidle, hflag,
          (f.step_locked op hne hlk).1⟩, k1, rfl⟩
      · exact ⟨(f.step op).1, z.start, ⟨⟨U', O', h'⟩, by rw [k1]; exact hcom, k2, ⟨z, by rw [k1]; exact hz, rfl⟩, how, hidle, hflag,
          (f.step_locked op hne hlk).1⟩, k1, rfl⟩
    · exact ⟨f, x, h0, rfl, rfl⟩
  | nv op =>
    dsimp only [Agg.step]
    split
    · rename_i hby
      rw [hflag] at hby
      have hsm := same_user K a.nv op hby
      refine ⟨f, x, ⟨⟨U, O, hsim⟩, hcom, htgt, ⟨s, hs, hsx⟩, (congrArg (fun c => c.2.2.1) hsm.fixed).trans how, ?_, hflag, hlk⟩, rfl, rfl⟩
      show (a.nv.step K op).1.readRange = none
      have hst : a.nv.step K op = a.nv.step' K op := by
        unfold NV.step
        have : op.usesProducer = false := by cases op <;> first | rfl | (cases hby; done)
        rw [this, Bool.and_false]
        rfl
      rw [hst]
      have hcon : a.nv.consumer = none ∨ a.nv.consumer = some (.plain none) ∨ a.nv.consumer = some (.cursor []) := by
        unfold NV.readRange at hidle
        split at hidle
        · rename_i r hr
          rw [hidle] at hr
          exact Or.inr (Or.inl hr)
        · rename_i rs hr
          rw [List.head?_eq_none_iff] at hidle
          rw [hidle] at hr
          exact Or.inr (Or.inr hr)
        · rename_i hr; exact Or.inl hr
      cases op with
      | registerConsumer =>
        dsimp only [NV.step']
        split
        · exact hidle
        · rfl
      | dropConsumer => rfl
      | finishRead =>
        dsimp only [NV.step', NV.finishRead]
        rcases hcon with hc | hc | hc <;> (rw [hc]; exact hidle)
      | ack =>
        dsimp only [NV.step', NV.ack]
        rcases hcon with hc | hc | hc <;> (rw [hc]; exact hidle)
      | waitForDrain => exact hidle
      | _ => first | (cases ha; done) | (cases hby; done)
    · exact ⟨f, x, h0, rfl, rfl⟩

theorem Draining.run {K : Crc} (ops : List AOp) : ∀ {a : Agg} {f : Fifo} {x : Nat}, Draining a f x → (∀ op ∈ ops, op.aside = true) →
    (∀ l l', ops = l ++ l' → (a.run K l).stage.out = false ∧ (a.run K l).stage ≠ .panicked) →
    8 * f.slots.length + a.stage.rank ≤ ops.countP (· == .thread) → ∃ y ∈ (a.run K ops).vlog.drop a.vlog.length, woke y := by
  induction ops with
  | nil =>
    intro a f x h _ _ hm
    obtain ⟨s, hs, _⟩ := h.mem
    have := List.length_pos_of_mem hs
    simp only [List.countP_nil] at hm
    omega
  | cons op ops ih =>
    intro a f x h ha hok hm
    have hok' : ∀ l l', ops = l ++ l' → ((a.step K op).run K l).stage.out = false ∧ ((a.step K op).run K l).stage ≠ .panicked :=
      fun l l' e => hok (op :: l) l' (by rw [e]; rfl)
    have ha' : ∀ o ∈ ops, o.aside = true := fun o ho => ha o (List.mem_cons_of_mem _ ho)
    obtain ⟨⟨L, hL⟩, _⟩ := step_grows K a op
    obtain ⟨⟨L', hL'⟩, _⟩ := run_grows K ops (a.step K op)
    have e : (a.run K (op :: ops)) = (a.step K op).run K ops := rfl
    rw [e]
    have later : (∃ y ∈ ((a.step K op).run K ops).vlog.drop (a.step K op).vlog.length, woke y) → ∃ y ∈ ((a.step K op).run K ops).vlog.drop a.vlog.length, woke y := by
      rintro ⟨y, hy, hw⟩
      refine ⟨y, ?_, hw⟩
      rw [hL, List.length_append, ← List.drop_drop] at hy
      exact List.mem_of_mem_drop hy
    by_cases ht : op = .thread
    · subst ht
      rw [List.countP_cons_of_pos (by rfl)] at hm
      rcases h.thread (K := K) (hok [] _ rfl).1 (hok [] _ rfl).2 (hok [.thread] ops rfl).1 (hok [.thread] ops rfl).2 with ⟨y, hy, hw⟩ | ⟨f', h', hlt⟩
      · refine ⟨y, ?_, hw⟩
        have hy : y ∈ (a.step K .thread).vlog.drop a.vlog.length := hy
        rw [hL', List.drop_append_of_le_length (by rw [hL, List.length_append]; exact Nat.le_add_right _ _)]
        exact List.mem_append_left _ hy
      · exact later (ih h' ha' hok' (by show _ + (a.thread K).stage.rank ≤ _; omega))
    · rw [List.countP_cons_of_neg (by simpa using ht)] at hm
      obtain ⟨f', x', h', e1, e2⟩ := h.other (K := K) op (ha op (by simp)) ht
      exact later (ih h' ha' hok' (by rw [e1, e2]; exact hm))

theorem nlog_tame (K : Crc) (a : Agg) (op : AOp) (h : ∀ o ∈ a.nlog.map (·.1), o.tame = true) (ha : op.aside = true) :
    ∀ o ∈ (a.step K op).nlog.map (·.1), o.tame = true := by
  have nv : ∀ (o : NOp) (st : Stage), o.tame = true → ∀ o' ∈ ((a.onNV K o).1.goto st).nlog.map (·.1), o'.tame = true := by
    intro o st ho o' h'
    have h' : o' ∈ (a.nlog ++ [(o, (a.nv.step K o).2)]).map (·.1) := h'
    rw [List.map_append, List.mem_append] at h'
    rcases h' with h' | h'
    · exact h o' h'
    · simp only [List.map_cons, List.map_nil, List.mem_singleton] at h'
      rw [h']
      exact ho
  have fst : ∀ {z : Agg × Out} {b : Agg} {o : Out}, z = (b, o) → b = z.1 := by
    intro z b o e; rw [e]
  cases op with
  | vol op => dsimp only [Agg.step]; split <;> exact h
  | stop => exact h
  | nv op =>
    dsimp only [Agg.step]
    split
    · refine nv op a.stage ?_
      cases op <;> first | rfl | (cases ha; done)
    · exact h
  | thread =>
    show ∀ o ∈ (a.thread K).nlog.map (·.1), o.tame = true
    unfold Agg.thread
    split
    · split <;> (rename_i e; rw [fst e]; exact h)
    · split <;> (rename_i e; rw [fst e]; exact nv _ _ rfl)
    · split
      · exact h
      · split <;> (rename_i e; rw [fst e]; exact h)
    · exact nv _ _ rfl
    · exact nv _ _ rfl
    · split <;> (rename_i e; rw [fst e]; exact nv _ _ rfl)
    · split <;> (rename_i e; rw [fst e]; exact nv _ _ rfl)
    · split <;> (rename_i e; rw [fst e]; exact h)
    · exact nv _ _ rfl
    · exact h
    · exact h
    · exact h

theorem nlog_tame_run (K : Crc) (ops : List AOp) : ∀ a : Agg, (∀ o ∈ a.nlog.map (·.1), o.tame = true) → (∀ op ∈ ops, op.aside = true) →
    ∀ o ∈ (a.run K ops).nlog.map (·.1), o.tame = true := by
  induction ops with
  | nil => intro a h _; exact h
  | cons op ops ih => intro a h ha; exact ih _ (nlog_tame K a op h (ha op (by simp))) (fun o ho => ha o (List.mem_cons_of_mem _ ho))

theorem flag_aside (K : Crc) (ops : List AOp) : ∀ a : Agg, (∀ op ∈ ops, op.aside = true) → (a.run K ops).flag = a.flag := by
  induction ops with
  | nil => intro a _; rfl
  | cons op ops ih =>
    intro a ha
    refine (ih _ (fun o ho => ha o (List.mem_cons_of_mem _ ho))).trans ?_
    have fst : ∀ {z : Agg × Out} {b : Agg} {o : Out}, z = (b, o) → b = z.1 := by
      intro z b o e; rw [e]
    cases op with
    | vol op => dsimp only [Agg.step]; split <;> rfl
    | nv op => dsimp only [Agg.step]; split <;> rfl
    | stop => exact absurd (ha .stop (by simp)) nofun
    | thread =>
      show (a.thread K).flag = a.flag
      unfold Agg.thread
      split
      · split <;> (rename_i e; rw [fst e]; rfl)
      · split <;> (rename_i e; rw [fst e]; rfl)
      · split
        · rfl
        · split <;> (rename_i e; rw [fst e]; rfl)
      · rfl
      · rfl
      · split <;> (rename_i e; rw [fst e]; rfl)
      · split <;> (rename_i e; rw [fst e]; rfl)
      · split <;> (rename_i e; rw [fst e]; rfl)
      · rfl
      · rfl
      · rfl
      · rfl

/-- C111, the flush returns: in a file that overwrites, with the memory part locked and without reservations and no record of the file being read, the flush waits for
nothing but the flush thread, whatever the others do meanwhile, as long as they do not unlock, shut down, alter the file or start to read.  (`C09_flush_hangs` is what may happen
without the lock.) -/
theorem C111_flush_returns (K : Crc) (vlen nlen : Nat) (hlen : vlen < 2 ^ 32) (hnlen : nlen < 2 ^ 32) (mem : Mem)
    (crc : Bool) (pre : List NOp) (ho : Opened pre) (a0 : Agg) (hsize : vlen + (if crc then 4 else 0) ≤ nlen)
    (hn : Agg.new vlen (nlen + 40) mem (nvAfter K nlen crc true true pre) = some a0) (ops ops' : List AOp)
    (ht : ∀ op ∈ pre ++ (a0.run K ops).nlog.map (·.1), op.tame = true) (ha : ∀ op ∈ ops', op.aside = true) :
    let a := a0.run K ops
    a.flag = false → 0 < a.vol.core.lockCount → a.vol.resv = [] → a.nv.readRange = none →
    8 * a.seen.grants.length + 8 ≤ ops'.countP (· == .thread) →
    FlushReturned a ((a.step K (.vol .waitForDrain)).run K ops') := by
  intro a hf hl hw hrr hcount
  have hps : (nvAfter K nlen crc true true pre).producer = none ∧ (nvAfter K nlen crc true true pre).parked = none := by
    obtain ⟨o1, o2, _⟩ := opened_state ho (fun p p' e => tame_sim K nlen hnlen crc true p (fun op hop => ht op (by
      rw [e]; simp [hop])))
    exact ⟨o1, o2⟩
  have h : AInv K vlen mem _ a := AInv.run hlen ops (AInv.init K vlen (nlen + 40) mem _ a0 hn hps.1 hps.2)
  obtain ⟨U, O, ids, lost, hs, htr⟩ := run_inv vlen mem hlen (a.vlog.map (·.1))
  rw [← h.log.seen] at htr
  rw [h.log.vol] at hs
  generalize hfe : ((Fifo.new vlen).run (a.vlog.map (·.1))).1 = f at hs htr
  have hO : O = [] := by
    have := hs.resv
    rw [show (a.vol, a.vlog.map (·.2)).1.resv = [] from hw] at this
    exact List.map_eq_nil_iff.1 this.symm
  have hcom : ∀ s ∈ f.slots, s.committed = true := by
    rw [hs.slots, hO, List.append_nil]
    exact hs.com
  have hv : f.visible = f.slots := takeWhile_all hcom
  obtain ⟨U', O', h', hag⟩ := hs.step .waitForDrain
  cases hg : f.slots.getLast? with
  | none =>
    left
    have : (f.step .waitForDrain).2 = .drain false := by
      simp only [Fifo.step, hv, hg]
    rw [this] at hag
    show (a.vol.step .waitForDrain).2 = .drain false
    have hag : ((a.vol.step .waitForDrain).2).agrees (.drain false) := hag
    cases hx : (a.vol.step .waitForDrain).2 with
    | drain b => rw [hx] at hag; exact congrArg Out.drain hag
    | record r => rw [hx] at hag; cases r <;> exact hag.elim
    | _ => rw [hx] at hag; exact hag.elim
  | some z =>
    right
    have hz : z ∈ f.slots := List.mem_of_getLast? hg
    have hstep : (f.step .waitForDrain).1 = { f with drain := some z.start } := by
      simp only [Fifo.step, hv, hg]
    rw [hstep] at h'
    have hd : Draining (a.step K (.vol .waitForDrain)) { f with drain := some z.start } z.start :=
      ⟨⟨U', O', h'⟩, hcom, rfl, ⟨z, hz, rfl⟩, ?_, hrr, hf, by show 0 < f.locks; rw [← hs.locks]; exact hl⟩
    · have hlog : (a.step K (.vol .waitForDrain)).vlog.length = a.vlog.length + 1 := by
        show (a.vlog ++ [_]).length = _
        rw [List.length_append]
        rfl
      have := hd.run (K := K) ops' ha ?_ ?_
      · rw [hlog] at this
        exact this
      · intro l l' e
        have ha1 : ∀ op ∈ l, op.aside = true := fun op hop => ha op (by rw [e]; exact List.mem_append_left _ hop)
        have hrun : (a.step K (.vol .waitForDrain)).run K l = a0.run K (ops ++ .vol .waitForDrain :: l) := by
          rw [agg_run_append]
          rfl
        have htame : ∀ op ∈ pre ++ (a0.run K (ops ++ .vol .waitForDrain :: l)).nlog.map (·.1), op.tame = true := by
          intro op hop
          rcases List.mem_append.1 hop with hop | hop
          · exact ht op (List.mem_append_left _ hop)
          · rw [← hrun] at hop
            exact nlog_tame_run K l (a.step K (.vol .waitForDrain)) (fun o ho => ht o (List.mem_append_right _ ho)) ha1 op hop
        have hal := (agg_calm K vlen nlen hlen mem crc true pre ho a0 hn (fun l => ∀ op ∈ l, op.tame = true)
          (fun _ _ h op hop => h op (List.mem_append_left _ hop)) (tame_sim K nlen hnlen crc true) (ops ++ .vol .waitForDrain :: l) htame).2 hsize
        have hpan := (C09_order K vlen (nlen + 40) hlen mem _ a0 hps.1 hps.2 hn (ops ++ .vol .waitForDrain :: l)).1
        rw [hrun]
        refine ⟨hal ?_, hpan⟩
        rw [← hrun, flag_aside K l _ ha1]
        exact hf
      · have hle : f.slots.length ≤ a.seen.grants.length := by
          rw [← htr.granted]
          have := htr.perm.length_eq
          simp only [List.length_append, List.length_map, List.length_range] at this
          omega
        have hrk : ∀ st : Stage, st.rank ≤ 8 := by intro st; cases st <;> simp [Stage.rank]
        have := hrk (a.step K (.vol .waitForDrain)).stage
        show 8 * f.slots.length + _ ≤ _
        omega
    · show a.nv.core.overwrite = true
      have h1 := run_cfg K (a.nlog.map (·.1)) (nvAfter K nlen crc true true pre)
      rw [h.log.nv] at h1
      have h2 := run_cfg K pre (NV.new K nlen crc true true)
      have h3 : a.nv.cfg = (NV.new K nlen crc true true).cfg := h1.trans h2
      exact congrArg (fun c => c.2.2.2) h3

/-! ### The persistent buffer by itself -/

theorem nv_locked (K : Crc) (s : NV) (op : NOp) (hu : op ≠ .unlock) (hr : op ≠ .restart) (hk : s.parked = none) (hl : 0 < s.core.lockCount) :
    (s.step K op).1.parked = none ∧ 0 < (s.step K op).1.core.lockCount ∧ (∀ r, (s.step K op).2 ≠ .slice (.ok r)) ∧
    (s.hasWrite = false → (s.step K op).1.hasWrite = false ∧ (op = .commit → ∀ x, (s.step K op).2 ≠ .unit (.ok x))) := by
  have hf : ∀ c : Core, c.fixed = s.core.fixed → 0 < c.lockCount := by
    intro c h
    rw [show c.lockCount = s.core.lockCount from congrArg (fun x => x.2.2.2.1) h]
    exact hl
  have hst : s.step K op = s.step' K op := by
    unfold NV.step
    rw [hk]
    rfl
  cases hut : op.byUser false with
  | true =>
    have hs := same_user K s op hut
    refine ⟨hs.parked.trans hk, hf _ hs.fixed, ?_, fun hw => ⟨?_, ?_⟩⟩
    · rw [hst]
      intro r
      cases op with
      | registerConsumer => dsimp only [NV.step']; split <;> simp
      | registerCursor =>
        dsimp only [NV.step']
        split
        · simp
        · split <;> simp
      | dropConsumer | startRead b | finishRead | cursorRead b | ack | waitForDrain | alter a b => simp [NV.step']
      | _ => cases hut
    · unfold NV.hasWrite at hw ⊢
      rw [hs.producer]
      exact hw
    · intro e
      rw [e] at hut
      cases hut
  | false =>
    cases op with
    | registerProducer =>
      rw [hst]
      dsimp only [NV.step']
      split
      · exact ⟨hk, hl, by simp, fun hw => ⟨hw, nofun⟩⟩
      · exact ⟨hk, hl, by simp, fun hw => ⟨rfl, nofun⟩⟩
    | dropProducer => rw [hst]; exact ⟨hk, hl, by simp [NV.step'], fun _ => ⟨rfl, nofun⟩⟩
    | reserve size block =>
      rw [hst]
      dsimp only [NV.step', NV.reserve]
      split
      · exact ⟨hk, hl, by simp, fun hw => ⟨hw, nofun⟩⟩
      · exact ⟨hk, hl, by simp, fun hw => ⟨hw, nofun⟩⟩
      · have e : s.core.startReserve size = (s.core.refused size, .error .failedPrecondition) := by
          unfold Core.startReserve
          rw [if_pos hl]
        rw [e]
        exact ⟨hk, hl, by simp, fun hw => ⟨hw, nofun⟩⟩
    | resume =>
      rw [hst]
      have e : s.resume K = (s, .err .invalidArgument) := by
        unfold NV.resume
        rw [hk]
      dsimp only [NV.step']
      rw [e]
      exact ⟨hk, hl, by simp, fun hw => ⟨hw, nofun⟩⟩
    | write off bytes =>
      rw [hst]
      dsimp only [NV.step', NV.write]
      split
      · split
        · exact ⟨hk, hl, by simp, fun hw => ⟨hw, nofun⟩⟩
        · exact ⟨hk, hl, by simp, fun hw => ⟨hw, nofun⟩⟩
      · exact ⟨hk, hl, by simp, fun hw => ⟨hw, nofun⟩⟩
    | commit =>
      have h1 := (thread_fixed K s .commit rfl).1
      refine ⟨?_, hf _ h1, ?_, ?_⟩
      · rw [hst]
        dsimp only [NV.step', NV.commit]
        split <;> exact hk
      · rw [hst]
        simp [NV.step']
      · intro hw
        rw [hst]
        dsimp only [NV.step', NV.commit]
        split
        · rename_i hp
          unfold NV.hasWrite at hw
          rw [hp] at hw
          cases hw
        · exact ⟨hw, fun _ => by simp⟩
        · exact ⟨hw, fun _ => by simp⟩
    | lock => rw [hst]; exact ⟨hk, Nat.succ_pos _, by simp [NV.step'], fun hw => ⟨hw, nofun⟩⟩
    | unlock => exact absurd rfl hu
    | shutdown =>
      rw [hst]
      refine ⟨hk, ?_, by simp [NV.step'], fun hw => ⟨hw, nofun⟩⟩
      dsimp only [NV.step']
      unfold Core.doShutdown
      split
      · exact hl
      · exact Nat.succ_pos _
    | restart => exact absurd rfl hr
    | _ => cases hut

/-- C111 for the persistent buffer, when no producer is inside `reserve`: while it is locked no reservation is granted, and when there is none left no record is added
as long as the lock is held and the process lives. -/
theorem C111_persistent_partial (K : Crc) (ops : List NOp) (hu : ∀ op ∈ ops, op ≠ .unlock ∧ op ≠ .restart) (crc : Bool) : ∀ (s : NV) (t : NTrace), s.parked = none →
    0 < s.core.lockCount →
    (∀ o ∈ (s.run K ops).2, ∀ r, o ≠ .slice (.ok r)) ∧
    ((∀ r, s.producer ≠ some (some r)) → (t.run crc ops (s.run K ops).2).committed = t.committed) := by
  induction ops with
  | nil => intro s t _ _; exact ⟨nofun, fun _ => rfl⟩
  | cons op ops ih =>
    intro s t hk hl
    obtain ⟨h1, h2, h3, h4⟩ := nv_locked K s op (hu op (by simp)).1 (hu op (by simp)).2 hk hl
    obtain ⟨c1, c2⟩ := ih (fun x hx => hu x (List.mem_cons_of_mem _ hx)) (s.step K op).1 (t.step crc op (s.step K op).2) h1 h2
    constructor
    · intro o ho
      rcases List.mem_cons.1 (show o ∈ (s.step K op).2 :: ((s.step K op).1.run K ops).2 from ho) with rfl | ho
      · exact h3
      · exact c1 o ho
    · intro hp
      have hw : s.hasWrite = false := by
        unfold NV.hasWrite
        split
        · rename_i r hr; exact absurd hr (hp r)
        · rfl
      obtain ⟨d1, d2⟩ := h4 hw
      have e : (t.step crc op (s.step K op).2).committed = t.committed := by
        revert d2
        generalize (s.step K op).2 = o
        intro d2
        unfold NTrace.step
        split
        case h_4 => exact absurd rfl (d2 rfl ())
        all_goals rfl
      refine (c2 ?_).trans e
      intro r hr
      unfold NV.hasWrite at d1
      rw [hr] at d1
      cases d1

/-- C111 fails for the persistent buffer when a producer is inside `reserve`, asleep until there is room: `lock` and `await_reservations_drained` return, and then the
producer gets its reservation (non_volatile_ring_buffer.rs:149-196 does not look at the lock again) and commits under the lock. -/
theorem C111_persistent_violated :
    let before : List NOp := [.registerProducer, .registerConsumer] ++ put [1, 2, 3, 4, 5, 6, 7, 8, 9, 10, 11, 12] ++ put [1, 2, 3, 4, 5, 6, 7, 8] ++ [.reserve 12 true, .lock]
    let w := (Wait.new testCrc 32 false false true).run testCrc (before.map .call)
    let w' := w.run testCrc ([.startRead true, .finishRead, .resume, .write 0 [7], .commit].map .call)
    w.nv.core.lockCount = 1 ∧ (w.step testCrc .await).2 = .unit (.ok ()) ∧ w'.nv.core.lockCount = 1 ∧
    (nvHistory testCrc 32 false false true before).committed.length = 2 ∧
    (nvHistory testCrc 32 false false true (before ++ [.startRead true, .finishRead, .resume, .write 0 [7], .commit])).committed.length = 3 := by decide +kernel

/-- C111, who waited for the reservations to be drained in the persistent buffer goes on when there are none, or the process ended. -/
theorem C111_drained_persistent (K : Crc) (w : Wait) (op : WOp) (hop : op ≠ .call .restart) :
    ((w.step K .await).2 = .unit (.ok ()) → ∀ r, w.nv.producer ≠ some (some r)) ∧
    (w.awaits ≠ 0 → (w.step K op).1.awaits = 0 → ∀ r, (w.step K op).1.nv.producer ≠ some (some r)) := by
  constructor
  · intro h r hr
    have e : w.nv.hasWrite = true := by unfold NV.hasWrite; rw [hr]
    simp only [Wait.step, e, if_true] at h
    cases h
  · intro h0 h1
    cases op with
    | await =>
      simp only [Wait.step] at h1
      split at h1
      · cases h1
      · exact absurd h1 h0
    | retry =>
      simp only [Wait.step] at h1
      split at h1
      · exact absurd h1 h0
      · exact absurd h1 h0
    | call op =>
      simp only [Wait.step] at h1 ⊢
      split at h1
      · exact absurd h1 h0
      · rename_i hg
        rw [if_neg hg]
        have key : (w.after op (w.nv.step K op)).awaits = (if noProducerReservation op (w.nv.step K op).2 then 0 else w.awaits) := by
          cases op with
          | restart => exact absurd rfl hop
          | _ => rfl
        rw [key] at h1
        split at h1
        · rename_i hn
          have hc : op = .commit ∧ (w.nv.step K op).2 = .unit (.ok ()) := by
            revert hn
            generalize (w.nv.step K op).2 = o
            intro hn
            unfold noProducerReservation at hn
            split at hn
            · exact ⟨rfl, rfl⟩
            · cases hn
          obtain ⟨rfl, ho⟩ := hc
          show ∀ r, (w.nv.step K .commit).1.producer ≠ some (some r)
          unfold NV.step at ho ⊢
          split at ho
          · cases ho
          · rename_i hk
            rw [if_neg hk]
            dsimp only [NV.step', NV.commit] at ho ⊢
            split at ho
            · nofun
            · cases ho
            · cases ho
        · exact absurd h1 h0

/-! ### Examples -/

/-- The memory part of `C111_volatile`: two records, the second still open when the lock is taken. -/
example :
    let ops : List Op := [.reserve 1 2, .write 1 0 [5, 6], .commit 1, .reserve 2 1, .lock, .write 2 0 [7], .commit 2]
    let ops' : List Op := [.reserve 1 3, .registerConsumer, .startRead true, .finishRead, .commit 1, .reserve 2 1]
    ((Vol.new 64 fun _ => 0).run ops).1.core.lockCount = 1 ∧ ((Vol.new 64 fun _ => 0).run ops).1.resv = [] ∧
    (history 64 (fun _ => 0) (ops ++ ops')).grants.map (·.data) = [[some 5, some 6], [some 7]] ∧
    (history 64 (fun _ => 0) (ops ++ ops')).delivered = [[5, 6]] ∧
    (history 64 (fun _ => 0) (ops ++ ops' ++ [.unlock, .reserve 1 3])).grants.length = 3 := by decide +kernel

/-- The consumer of a trigger buffer: lock, flush, read; a record offered meanwhile is refused and does not appear. -/
example :
    let ops : List AOp := aput 0 [1, 2, 3] ++ aput 1 [4, 5] ++ [.vol .lock]
    let ops' : List AOp := List.replicate 10 .thread ++ aput 0 [6] ++ List.replicate 14 .thread
    let ops'' : List AOp := [.nv .registerConsumer, .nv (.startRead false)] ++ aput 1 [7] ++ [.thread, .nv .finishRead, .thread]
    let a := (anew 64 64 true false).run testCrc ops
    let a' := (a.step testCrc (.vol .waitForDrain)).run testCrc ops'
    let a'' := a'.run testCrc ops''
    a.vol.core.lockCount = 1 ∧ a.vol.resv = [] ∧ (a'.vlog.drop (a.vlog.length + 1)).any (fun x => x.2 == .finished (.ok true)) = true ∧
    AOp.vol .unlock ∉ ops' ++ ops'' ∧ a''.stored.calm = true ∧ a''.stored.taken = [[1, 2, 3]] ∧
    a''.stored.committed = [[some 1, some 2, some 3], [some 4, some 5]] := by decide +kernel

/-- `C111_flush_returns`: the hypotheses are met. -/
example :
    let ops : List AOp := aput 0 [1, 2, 3] ++ aput 1 [4, 5] ++ [.vol .lock]
    let ops' : List AOp := List.replicate 10 .thread ++ aput 0 [6] ++ [.vol .waitForDrain, .nv .registerConsumer] ++ List.replicate 14 .thread
    let a := (anew 64 72 true true).run testCrc ops
    a.flag = false ∧ a.vol.core.lockCount = 1 ∧ a.vol.resv = [] ∧ a.nv.readRange = none ∧ (ops'.all (·.aside)) = true ∧
    8 * a.seen.grants.length + 8 ≤ ops'.countP (· == .thread) ∧ (a.nlog.map (·.1)).all (·.tame) = true ∧
    (a.vol.step .waitForDrain).2 = .drain true := by decide +kernel

end Verif.Buffer
