import Verif.Buffer.AggAlive
import Verif.Buffer.NVProps

/-
C09: the aggregate buffer.

`a0` is a new aggregate buffer over a disk buffer `s0`; `a0.run K ops` is its state after any
interleaving `ops` of calls by users (any number of producers, a consumer or cursor consumer of the disk
part, flushers, lock holders), changes of the file by the environment, and critical sections of the flush
thread.  `seen` and `stored` are what observers of the memory part and of the disk part know.
-/
namespace Verif.Buffer

/-- The disk buffer was just opened: a new file, or one left behind by the calls `p`. -/
def Opened (pre : List NOp) : Prop := pre = [] ∨ ∃ p, pre = p ++ [.restart]

/-! ### Order -/

/-- C09, order.  The records committed to disk are records committed by the producers, in the order of
their reservations, none twice, with the same bytes.  Every reservation granted is in exactly one place: on
disk, dropped because the disk buffer was being reset after data loss, overwritten in memory, or in
memory; and what is in memory is newer than the rest.  The flush thread never panics. -/
theorem C09_order (K : Crc) (vlen nvSize : Nat) (hlen : vlen < 2 ^ 32) (mem : Mem) (s0 : NV) (a0 : Agg)
    (hp : s0.producer = none) (hk : s0.parked = none) (hn : Agg.new vlen nvSize mem s0 = some a0)
    (ops : List AOp) :
    (a0.run K ops).stage ≠ .panicked ∧
    ∃ disk refused lost live, Ledger (a0.run K ops) disk refused lost live := by
  have h := AInv.run hlen ops (AInv.init K vlen nvSize mem s0 a0 hn hp hk)
  refine ⟨fun e => ?_, h.ledger hlen⟩
  have := h.ok
  rw [e] at this
  exact this

/-- C09, flush.  When a flush has returned, every record that was committed when it was called (together
with all older ones) has left memory: it is on disk, or was dropped or overwritten. -/
theorem C09_flush (K : Crc) (vlen nvSize : Nat) (hlen : vlen < 2 ^ 32) (mem : Mem) (s0 : NV) (a0 : Agg)
    (hp : s0.producer = none) (hk : s0.parked = none) (hn : Agg.new vlen nvSize mem s0 = some a0)
    (ops ops' : List AOp) :
    let a := a0.run K ops
    let a' := (a.step K (.vol .waitForDrain)).run K ops'
    FlushReturned a a' →
    ∃ disk refused lost live, Ledger a' disk refused lost live ∧
      ∀ i, i < a.seen.grants.length →
        (∀ (k : Nat) (g : Grant), k ≤ i → a.seen.grants[k]? = some g → g.committed = true) →
        i ∈ disk ++ refused ++ lost := by
  intro a a' hr
  have h := AInv.run hlen ops (AInv.init K vlen nvSize mem s0 a0 hn hp hk)
  obtain ⟨disk, refused, lost, live, hl, hm⟩ := flush_ledger h hlen ops' hr
  refine ⟨disk, refused, lost, live, hl, ?_⟩
  intro i hi hc
  have hnl := hm i ⟨i, Nat.le_refl _, hi, hc⟩
  have hgr : a.seen.grants.length ≤ a'.seen.grants.length := grants_grow K a (.vol .waitForDrain :: ops')
  have : i ∈ disk ++ refused ++ lost ++ live := hl.all.symm.subset (by
    rw [List.mem_range]; exact Nat.lt_of_lt_of_le hi hgr)
  rcases List.mem_append.1 this with h1 | h1
  · exact h1
  · exact absurd h1 hnl

/-! ### Nothing is dropped, and the thread keeps running -/

theorem opened_state {K : Crc} {nlen : Nat} {crc ow : Bool} {pre : List NOp} (ho : Opened pre)
    (hsim : ∀ p p', pre = p ++ p' → ∃ q, NVSim K (nvAfter K nlen crc ow true p) q) :
    let s := nvAfter K nlen crc ow true pre
    s.producer = none ∧ s.parked = none ∧ s.core.lockCount = 0 ∧ s.core.shutdown = false := by
  rcases ho with rfl | ⟨p, rfl⟩
  · exact ⟨rfl, rfl, rfl, rfl⟩
  · obtain ⟨q, hq⟩ := hsim p [.restart] rfl
    have e : nvAfter K nlen crc ow true (p ++ [.restart]) =
        ((nvAfter K nlen crc ow true p).step' K .restart).1 := by
      unfold nvAfter
      rw [nv_run_append]
      simp only [NV.run, NV.step, NOp.usesProducer, Bool.and_false, Bool.false_eq_true, if_false]
    intro s
    have hs : s = ((nvAfter K nlen crc ow true p).step' K .restart).1 := e
    rw [hs]
    have : ∃ s', (nvAfter K nlen crc ow true p).reopen K = some s' := by
      unfold NV.reopen
      rw [if_neg (by rw [hq.hdr]; simp)]
      exact ⟨_, rfl⟩
    obtain ⟨s', hs'⟩ := this
    have e2 : ((nvAfter K nlen crc ow true p).step' K .restart).1 = s' := by
      simp only [NV.step', hs']
    rw [e2]
    unfold NV.reopen at hs'
    split at hs'
    · cases hs'
    · cases hs'
      exact ⟨rfl, rfl, rfl, rfl⟩

theorem nvAfter_conf (K : Crc) (len : Nat) (crc ow b : Bool) (ops : List NOp) :
    (nvAfter K len crc ow b ops).core.len = len ∧
    (nvAfter K len crc ow b ops).core.xb = (if crc then 8 else 4) := by
  have := run_cfg K ops (NV.new K len crc ow b)
  exact ⟨congrArg (fun x => x.2.2.1) this, congrArg (fun x => x.2.1) this⟩

theorem step_blockOnRead (K : Crc) (s : NV) (op : NOp) : (s.step K op).1.blockOnRead = s.blockOnRead := by
  by_cases h1 : op.byThread = true
  · exact (thread_fixed K s op h1).2
  by_cases h2 : op.byUser false = true
  · exact (same_user K s op h2).block
  cases op with
  | lock => unfold NV.step; split <;> rfl
  | unlock => unfold NV.step; split <;> rfl
  | shutdown => unfold NV.step; split <;> rfl
  | restart =>
    unfold NV.step
    split
    · rfl
    · simp only [NV.step']
      split
      · rename_i s' hs'
        unfold NV.reopen at hs'
        split at hs'
        · cases hs'
        · cases hs'; rfl
      · rfl
  | _ => first | exact absurd rfl h1 | exact absurd rfl h2

theorem run_blockOnRead (K : Crc) (ops : List NOp) : ∀ s : NV, (s.run K ops).1.blockOnRead = s.blockOnRead := by
  induction ops with
  | nil => intro s; rfl
  | cons op ops ih => intro s; exact (ih _).trans (step_blockOnRead K s op)

/-- While the disk buffer behaves like a queue (`P`): nothing is dropped, and the thread stops only when
told to, if every record that fits in memory fits on disk. -/
theorem agg_calm (K : Crc) (vlen nlen : Nat) (hlen : vlen < 2 ^ 32) (mem : Mem) (crc ow : Bool) (pre : List NOp)
    (ho : Opened pre) (a0 : Agg) (hn : Agg.new vlen (nlen + 40) mem (nvAfter K nlen crc ow true pre) = some a0)
    (P : List NOp → Prop) (hpre : ∀ l l', P (l ++ l') → P l)
    (hP : ∀ l, P l → ∃ q, NVSim K (nvAfter K nlen crc ow true l) q) (ops : List AOp)
    (h : P (pre ++ (a0.run K ops).nlog.map (·.1))) :
    let a := a0.run K ops
    a.dropped = 0 ∧
    (vlen + (if crc then 4 else 0) ≤ nlen → a.flag = false → a.stage.out = false) := by
  intro a
  obtain ⟨o1, o2, o3, o4⟩ := opened_state ho (fun p p' e => hP p (by
    apply hpre p (p' ++ (a0.run K ops).nlog.map (·.1))
    rw [← List.append_assoc, ← e]; exact h))
  obtain ⟨c1, c2⟩ := nvAfter_conf K nlen crc ow true pre
  have c3 : (nvAfter K nlen crc ow true pre).blockOnRead = true := run_blockOnRead K pre _
  have hi := AInv.init K vlen (nlen + 40) mem _ a0 hn o1 o2
  have hs0 : Sane vlen nlen (if crc then 8 else 4) a0 ∧ Calm a0 := by
    unfold Agg.new at hn
    split at hn
    · cases hn
    · cases hn
      refine ⟨⟨c3, ?_, c1, c2, rfl, ?_, ?_⟩, ⟨rfl, ?_⟩⟩
      · intro hx
        have hx : 0 < (nvAfter K nlen crc ow true pre).core.lockCount := hx
        rw [o3] at hx; cases hx
      · intro hx; cases hx
      · intro hx
        have hx : (nvAfter K nlen crc ow true pre).core.shutdown = true := hx
        rw [o4] at hx; cases hx
      · intro _ hx; cases hx
  obtain ⟨r1, r2⟩ := Calm.run hlen (fun l => P (pre ++ l))
    (fun l l' hl => hpre _ l' (by rw [List.append_assoc]; exact hl))
    (fun l hl => by
      obtain ⟨q, hq⟩ := hP _ hl
      unfold nvAfter at hq
      rw [nv_run_append] at hq
      exact ⟨q, hq⟩) ops hi hs0.1 hs0.2 h
  refine ⟨r2.drops, ?_⟩
  intro hl hf
  cases hout : a.stage.out with
  | false => rfl
  | true =>
    have := r2.alive (by
      rw [r1.vlen, r1.nlen, r1.xb]
      cases crc <;> simpa using hl) hout
    rw [show a.flag = false from hf] at this
    cases this

theorem tame_sim (K : Crc) (nlen : Nat) (hnlen : nlen < 2 ^ 32) (crc ow : Bool) (l : List NOp)
    (h : ∀ op ∈ l, op.tame = true) : ∃ q, NVSim K (nvAfter K nlen crc ow true l) q := by
  obtain ⟨q, hq, _⟩ := tame_run l (NVSim.new K nlen crc ow true hnlen) h (fun n e => by cases e) rfl
  exact ⟨q, hq⟩

/-- C09, nothing dropped: with a plain consumer or none, now and before, and no alterations of the file,
every record the flush thread takes out of memory reaches the disk.  `C09_order` then says that what is not
on disk is in memory or was overwritten there. -/
theorem C09_no_drops (K : Crc) (vlen nlen : Nat) (hlen : vlen < 2 ^ 32) (hnlen : nlen < 2 ^ 32) (mem : Mem)
    (crc ow : Bool) (pre : List NOp) (ho : Opened pre) (a0 : Agg)
    (hn : Agg.new vlen (nlen + 40) mem (nvAfter K nlen crc ow true pre) = some a0) (ops : List AOp)
    (ht : ∀ op ∈ pre ++ (a0.run K ops).nlog.map (·.1), op.tame = true) :
    (a0.run K ops).dropped = 0 :=
  (agg_calm K vlen nlen hlen mem crc ow pre ho a0 hn (fun l => ∀ op ∈ l, op.tame = true)
    (fun _ _ h op hop => h op (List.mem_append_left _ hop)) (tame_sim K nlen hnlen crc ow) ops ht).1

/-- The same with a cursor consumer, for the histories that are `calm` (see C06). -/
theorem C09_no_drops_cursor (K : Crc) (vlen nlen : Nat) (hlen : vlen < 2 ^ 32) (hnlen : nlen < 2 ^ 32) (mem : Mem)
    (crc : Bool) (pre : List NOp) (ho : Opened pre) (a0 : Agg)
    (hn : Agg.new vlen (nlen + 40) mem (nvAfter K nlen crc false true pre) = some a0) (ops : List AOp)
    (hz : NoZero K (NV.new K nlen crc false true) (pre ++ (a0.run K ops).nlog.map (·.1)))
    (hc : (nvHistory K nlen crc false true (pre ++ (a0.run K ops).nlog.map (·.1))).calm = true) :
    (a0.run K ops).dropped = 0 := by
  refine (agg_calm K vlen nlen hlen mem crc false pre ho a0 hn (fun l => NoZero K (NV.new K nlen crc false true) l ∧
    (nvHistory K nlen crc false true l).calm = true) ?_ ?_ ops ⟨hz, hc⟩).1
  · rintro l l' ⟨h1, h2⟩
    refine ⟨noZero_prefix l l' h1, ?_⟩
    unfold nvHistory at h2 ⊢
    rw [ntrace_append] at h2
    exact ntrace_calm _ _ _ _ h2
  · rintro l ⟨h1, h2⟩
    obtain ⟨q, hq, _⟩ := nv_reach K nlen hnlen crc true l h1 h2
    exact ⟨q, hq⟩

/-- C56, the thread keeps running, without record checksums: until `shutdown` sets the flag, the flush
thread does not leave its loop. -/
theorem C56_alive (K : Crc) (vlen nlen : Nat) (hlen : vlen < 2 ^ 32) (hnlen : nlen < 2 ^ 32) (mem : Mem)
    (ow : Bool) (pre : List NOp) (ho : Opened pre) (a0 : Agg)
    (hn : Agg.new vlen (nlen + 40) mem (nvAfter K nlen false ow true pre) = some a0) (ops : List AOp)
    (ht : ∀ op ∈ pre ++ (a0.run K ops).nlog.map (·.1), op.tame = true) :
    (a0.run K ops).flag = false → (a0.run K ops).stage.out = false := by
  refine (agg_calm K vlen nlen hlen mem false ow pre ho a0 hn (fun l => ∀ op ∈ l, op.tame = true)
    (fun _ _ h op hop => h op (List.mem_append_left _ hop)) (tame_sim K nlen hnlen false ow) ops ht).2 ?_
  unfold Agg.new at hn
  split at hn
  · cases hn
  · simp only [Bool.false_eq_true, if_false]; omega

/-- The same with record checksums, if the memory part is four bytes smaller than the disk part; missing
because false: `C56_alive_violated`. -/
theorem C56_alive_partial (K : Crc) (vlen nlen : Nat) (hlen : vlen < 2 ^ 32) (hnlen : nlen < 2 ^ 32) (mem : Mem)
    (ow : Bool) (pre : List NOp) (ho : Opened pre) (a0 : Agg) (hsize : vlen + 4 ≤ nlen)
    (hn : Agg.new vlen (nlen + 40) mem (nvAfter K nlen true ow true pre) = some a0) (ops : List AOp)
    (ht : ∀ op ∈ pre ++ (a0.run K ops).nlog.map (·.1), op.tame = true) :
    (a0.run K ops).flag = false → (a0.run K ops).stage.out = false :=
  (agg_calm K vlen nlen hlen mem true ow pre ho a0 hn (fun l => ∀ op ∈ l, op.tame = true)
    (fun _ _ h op hop => h op (List.mem_append_left _ hop)) (tame_sim K nlen hnlen true ow) ops ht).2 hsize

/-! ### Shutdown -/

theorem Fifo.step_locked (f : Fifo) (op : Op) (h : op ≠ .unlock) (hl : 0 < f.locks) :
    0 < (f.step op).1.locks ∧ ∀ r, (f.step op).2 ≠ .slice (.ok r) := by
  cases op with
  | reserve p size =>
    simp only [Fifo.step, Fifo.reserve]
    split
    · exact ⟨hl, by simp⟩
    exact ⟨hl, by simp⟩
  | write p off bytes =>
    simp only [Fifo.step, Fifo.write]
    split <;> exact ⟨hl, by simp⟩
  | commit p =>
    simp only [Fifo.step, Fifo.commit]
    split <;> exact ⟨hl, by simp⟩
  | registerConsumer => simp only [Fifo.step]; split <;> exact ⟨hl, by simp⟩
  | dropConsumer => exact ⟨hl, by simp [Fifo.step]⟩
  | startRead b =>
    simp only [Fifo.step, Fifo.startRead]
    split
    · exact ⟨hl, by simp⟩
    · exact ⟨hl, by simp⟩
    · split <;> exact ⟨hl, by simp⟩
  | finishRead =>
    simp only [Fifo.step, Fifo.finishRead]
    split
    · exact ⟨hl, by simp⟩
    · exact ⟨hl, by simp⟩
    · exact ⟨hl, by simp⟩
  | waitForDrain => simp only [Fifo.step]; split <;> exact ⟨hl, by simp⟩
  | lock => exact ⟨Nat.succ_pos _, by simp [Fifo.step]⟩
  | unlock => exact absurd rfl h
  | shutdown =>
    simp only [Fifo.step]
    split
    · exact ⟨hl, by simp⟩
    · exact ⟨Nat.succ_pos _, by simp⟩

theorem vol_locked {v : Vol} {f : Fifo} {U O : List Slot} (h : Sim v f U O) (op : Op) (hne : op ≠ .unlock)
    (hl : 0 < v.core.lockCount) (t : Trace) :
    0 < (v.step op).1.core.lockCount ∧ (t.step op (v.step op).2).grants.length = t.grants.length := by
  obtain ⟨U', O', h', ha⟩ := h.step op
  obtain ⟨b1, b2⟩ := f.step_locked op hne (by rw [← h.locks]; exact hl)
  refine ⟨by rw [h'.locks]; exact b1, ?_⟩
  unfold Trace.step
  split
  · rename_i heq
    rw [heq] at ha
    cases hso : (f.step _).2 with
    | slice x =>
      rw [hso] at ha
      simp only [Out.agrees] at ha
      exact absurd (hso.trans (by rw [← ha])) (b2 _)
    | record _ => rw [hso] at ha; exact ha.elim
    | unit _ => rw [hso] at ha; exact ha.elim
    | finished _ => rw [hso] at ha; exact ha.elim
    | drain _ => rw [hso] at ha; exact ha.elim
  all_goals simp

theorem agg_locked {K : Crc} {len : Nat} {mem : Mem} {s0 : NV} (hlen : len < 2 ^ 32) (ops : List AOp)
    (hu : AOp.vol .unlock ∉ ops) : ∀ {a : Agg}, AInv K len mem s0 a → 0 < a.vol.core.lockCount →
    (a.run K ops).seen.grants.length = a.seen.grants.length := by
  induction ops with
  | nil => intro a _ _; rfl
  | cons op ops ih =>
    intro a h hl
    obtain ⟨f, U, O, hsim⟩ := h.sim hlen
    have v : ∀ op st, op ≠ .unlock → 0 < ((a.onVol op).1.goto st).vol.core.lockCount ∧
        ((a.onVol op).1.goto st).seen.grants.length = a.seen.grants.length := by
      intro op st hne
      obtain ⟨b1, b2⟩ := vol_locked hsim op hne hl a.seen
      refine ⟨b1, ?_⟩
      show (a.onVol op).1.seen.grants.length = _
      rw [seen_onVol]
      exact b2
    have fst : ∀ {x : Agg × Out} {b : Agg} {o : Out}, x = (b, o) → b = x.1 := by
      intro x b o e; rw [e]
    have key : 0 < (a.step K op).vol.core.lockCount ∧ (a.step K op).seen.grants.length = a.seen.grants.length := by
      cases op with
      | vol op =>
        simp only [Agg.step]
        split
        · exact v op a.stage (fun e => hu (by rw [e]; simp))
        · exact ⟨hl, rfl⟩
      | nv op =>
        simp only [Agg.step]
        split <;> exact ⟨hl, rfl⟩
      | stop => exact ⟨hl, rfl⟩
      | thread =>
        show 0 < (a.thread K).vol.core.lockCount ∧ (a.thread K).seen.grants.length = _
        unfold Agg.thread
        split
        · split <;> (rename_i e; rw [fst e]; exact v _ _ (by simp))
        · split <;> (rename_i e; rw [fst e]; exact ⟨hl, rfl⟩)
        · split
          · exact ⟨hl, rfl⟩
          · split
            · rename_i e; rw [fst e]; exact v _ _ (by simp)
            · rename_i e; rw [fst e]; exact v (.startRead true) a.stage (by simp)
            · rename_i e; rw [fst e]; exact v _ _ (by simp)
        · exact ⟨hl, rfl⟩
        · exact ⟨hl, rfl⟩
        · split <;> (rename_i e; rw [fst e]; exact ⟨hl, rfl⟩)
        · split <;> (rename_i e; rw [fst e]; exact ⟨hl, rfl⟩)
        · split <;> (rename_i e; rw [fst e]; exact v _ _ (by simp))
        · exact ⟨hl, rfl⟩
        · exact v _ _ (by simp)
        · exact ⟨hl, rfl⟩
        · exact ⟨hl, rfl⟩
    exact (ih (fun hm => hu (List.mem_cons_of_mem _ hm)) (h.step hlen op) key.1).trans key.2

/-- C09, shutdown (aggregate_ring_buffer.rs:240-276): once the memory part is locked and all reservations
are committed, a flush that returns leaves nothing in memory only, as long as nobody releases the lock. -/
theorem C09_shutdown (K : Crc) (vlen nvSize : Nat) (hlen : vlen < 2 ^ 32) (mem : Mem) (s0 : NV) (a0 : Agg)
    (hp : s0.producer = none) (hk : s0.parked = none) (hn : Agg.new vlen nvSize mem s0 = some a0)
    (ops ops' : List AOp) (hu : AOp.vol .unlock ∉ ops') :
    let a := a0.run K ops
    let a' := (a.step K (.vol .waitForDrain)).run K ops'
    0 < a.vol.core.lockCount → (∀ g ∈ a.seen.grants, g.committed = true) → FlushReturned a a' →
    ∃ disk refused lost, Ledger a' disk refused lost [] := by
  intro a a' hl hc hr
  obtain ⟨disk, refused, lost, live, hled, hm⟩ := C09_flush K vlen nvSize hlen mem s0 a0 hp hk hn ops ops' hr
  have h := AInv.run hlen ops (AInv.init K vlen nvSize mem s0 a0 hn hp hk)
  have hg : a'.seen.grants.length = a.seen.grants.length :=
    agg_locked hlen (.vol .waitForDrain :: ops') (by simpa using hu) h hl
  have : live = [] := by
    cases live with
    | nil => rfl
    | cons i rest =>
      exfalso
      have hi : i < a.seen.grants.length := by
        rw [← hg, ← List.mem_range]
        exact hled.all.subset (by simp)
      have := hm i hi (fun k g _ hk => hc g (List.mem_of_getElem? hk))
      exact Nat.lt_irrefl _ (hled.oldest i this i (by simp))
  subst this
  exact ⟨disk, refused, lost, hled⟩

/-! ### From the producers to the reader -/

/-- C09 and C05 together, for a new file that does not overwrite: the records taken by the readers of the
aggregate buffer are the oldest records that reached the disk; they are records committed by the producers,
in the order of the reservations, none twice, with the bytes stored. -/
theorem C09_end_to_end (K : Crc) (vlen nlen : Nat) (hlen : vlen < 2 ^ 32) (hnlen : nlen < 2 ^ 32) (mem : Mem)
    (crc : Bool) (a0 : Agg) (hn : Agg.new vlen (nlen + 40) mem (NV.new K nlen crc false true) = some a0)
    (ops : List AOp) (hz : NoZero K (NV.new K nlen crc false true) ((a0.run K ops).nlog.map (·.1))) :
    let a := a0.run K ops
    a.stored.calm = true →
    ∃ ids : List Nat, ids.Pairwise (· < ·) ∧
      List.Forall₂ (fun bs i => ∃ g, a.seen.grants[i]? = some g ∧ g.committed = true ∧ stores g.data bs)
        a.stored.taken ids := by
  intro a hc
  have h := AInv.run hlen ops (AInv.init K vlen (nlen + 40) mem _ a0 hn rfl rfl)
  have e : a.stored = nvHistory K nlen crc false true (a.nlog.map (·.1)) := by
    unfold Agg.stored nvHistory
    rw [h.log.crc, h.log.nv]
    rfl
  obtain ⟨disk, refused, lost, live, hl⟩ := h.ledger hlen
  obtain ⟨b1, b2, _⟩ := C05_never_loses K nlen hnlen crc true (a.nlog.map (·.1)) hz (by rw [← e]; exact hc)
  rw [← e] at b1 b2
  refine ⟨disk.take a.stored.taken.length, hl.order.sublist (List.take_sublist _ _), ?_⟩
  have b3 : List.Forall₂ (Copied a) (a.stored.committed.take a.stored.taken.length)
      (disk.take a.stored.taken.length) := List.forall₂_take _ hl.copied
  revert b2 b3
  generalize a.stored.committed.take a.stored.taken.length = ds
  generalize disk.take a.stored.taken.length = is
  generalize a.stored.taken = bss
  intro b2
  induction b2 generalizing is with
  | nil => intro b3; cases b3; exact .nil
  | @cons d bs ds bss hd _ ih =>
    intro b3
    cases b3 with
    | @cons _ i _ is hx hr =>
      refine .cons ?_ (ih _ hr)
      obtain ⟨g, bs', g1, g2, g3, rfl⟩ := hx
      have : bs = bs' := by
        apply List.ext_getElem?
        intro k
        by_cases hk : k < bs'.length
        · rw [hd.2 k bs'[k] (by simp [hk])]
          simp [hk]
        · have hl := hd.1
          rw [List.length_map] at hl
          rw [List.getElem?_eq_none (by omega), List.getElem?_eq_none (by omega)]
      rw [this]
      exact ⟨g, g1, g2, g3⟩

/-! ### Examples and counterexamples -/

/-- A record stored by producer `p` of the aggregate buffer. -/
def aput (p : Nat) (bs : List UInt8) : List AOp :=
  [.vol (.reserve p bs.length), .vol (.write p 0 bs), .vol (.commit p)]

/-- A new aggregate buffer over a new file. -/
def anew (vlen nlen : Nat) (crc ow : Bool) : Agg :=
  { vol := Vol.new vlen (fun _ => 0), nv := NV.new testCrc nlen crc ow true, flag := false, stage := .spawned
    vlog := [], nlog := [] }

example : Agg.new 64 (64 + 40) (fun _ => 0) (NV.new testCrc 64 true false true) = some (anew 64 64 true false) := rfl

/-- Two producers, a flush that waits, the thread moves both records, a reader takes the first. -/
example :
    let before : List AOp := aput 0 [1, 2, 3] ++ aput 1 [4, 5]
    let after : List AOp := List.replicate 12 .thread ++
      [.nv .registerConsumer, .nv (.startRead false), .nv .finishRead]
    let a := (anew 64 64 true false).run testCrc before
    let a' := (a.step testCrc (.vol .waitForDrain)).run testCrc after
    (a.vol.step .waitForDrain).2 = .drain true ∧
    (a'.vlog.drop (a.vlog.length + 1)).map (·.2) =
      [.unit (.ok ()), .record (.ok (⟨4, 3⟩, [1, 2, 3])), .finished (.ok false),
       .record (.ok (⟨11, 2⟩, [4, 5])), .finished (.ok true)] ∧
    a'.stage = .loop ∧ a'.stored.calm = true ∧
    a'.stored.committed = [[some 1, some 2, some 3], [some 4, some 5]] ∧
    a'.stored.taken = [[1, 2, 3]] ∧ a'.dropped = 0 ∧ a'.seen.delivered = [[1, 2, 3], [4, 5]] := by
  decide +kernel

/-- The flush thread blocks on a full disk part, and goes on when the reader makes room. -/
example :
    let a := (anew 24 24 true false).run testCrc
      (aput 0 [1, 2, 3, 4, 5] ++ List.replicate 7 .thread ++ aput 0 [5, 6, 7, 8, 9] ++ List.replicate 3 .thread)
    let a' := a.run testCrc ([.nv .registerConsumer, .nv (.startRead false), .nv .finishRead] ++
      List.replicate 4 .thread)
    a.stage = .asleep ⟨13, 5⟩ ∧ a.stored.committed.length = 1 ∧
    a'.stage = .loop ∧ a'.stored.committed.length = 2 ∧ a'.stored.taken = [[1, 2, 3, 4, 5]] := by
  decide +kernel

/-- Shutdown: lock, flush, stop. -/
example :
    let a := (anew 64 64 true true).run testCrc
      (List.replicate 2 .thread ++ aput 0 [1, 2] ++ aput 0 [3] ++ [.vol .lock])
    let a' := (a.step testCrc (.vol .waitForDrain)).run testCrc
      (List.replicate 10 .thread ++ [.stop, .vol .shutdown, .nv .shutdown] ++ List.replicate 3 .thread)
    0 < a.vol.core.lockCount ∧ (a.seen.grants.all (·.committed)) = true ∧
    (a'.vlog.drop (a.vlog.length + 1)).any (fun x => x.2 == .finished (.ok true)) = true ∧
    a'.stage = .dead ∧ a'.stored.committed = [[some 1, some 2], [some 3]] := by
  decide +kernel

/-- With record checksums a record of 20 bytes is accepted into a memory part of 24 bytes, over a disk part
of 24 bytes, and does not fit there: the flush thread leaves its loop although nobody asked for a shutdown
(in a debug build it fails the assertion at aggregate_ring_buffer.rs:95), and nothing reaches the disk from
then on.  The size check at aggregate_ring_buffer.rs:141-158 is meant to exclude this. -/
theorem C56_alive_violated :
    ∃ ops : List AOp,
      let a := (anew 24 24 true true).run testCrc ops
      Agg.new 24 (24 + 40) (fun _ => 0) (NV.new testCrc 24 true true true) = some (anew 24 24 true true) ∧
      (∀ op ∈ a.nlog.map (·.1), op.tame = true) ∧
      a.flag = false ∧ a.stage = .dead ∧ a.stored.committed = [] ∧
      (a.seen.grants.all (·.committed)) = true ∧ a.seen.grants.length = 1 := by
  refine ⟨aput 0 (List.replicate 20 7) ++ List.replicate 6 .thread, rfl, ?_⟩
  decide +kernel

/-- A flush can hang: the record it waits for is overwritten in memory, the flush thread then moves the
newer record and goes back to waiting with nothing left to read, and nobody wakes the flusher (the code
has a TODO about this, common_ring_buffer.rs:654). -/
theorem C09_flush_hangs :
    ∃ ops ops' : List AOp,
      let a := (anew 24 64 true true).run testCrc ops
      let a' := (a.step testCrc (.vol .waitForDrain)).run testCrc ops'
      (a.vol.step .waitForDrain).2 = .drain true ∧
      (a'.vlog.drop (a.vlog.length + 1)).all (fun x => x.2 != .finished (.ok true)) = true ∧
      a'.vol.unread = [] ∧ a'.stage = .loop ∧ a'.vol.core.shutdown = false ∧
      (a'.thread testCrc).stage = .loop := by
  refine ⟨aput 0 [1, 2, 3, 4] ++ List.replicate 8 .thread ++ aput 0 [5, 6, 7, 8],
    aput 0 [1, 2, 3, 4, 5, 6, 7, 8, 9, 10, 11, 12, 13, 14] ++ List.replicate 7 .thread, ?_⟩
  decide +kernel

end Verif.Buffer
