import Verif.Buffer.NVTraceLemmas

/-
Lemmas for C08: what a reader checks, and what it does with altered records.
-/
namespace Verif.Buffer

/-- Four bytes are zeroed. -/
def zero4 (m : Mem) (a : Nat) : Mem := writeMem m a [0, 0, 0, 0]

theorem advanceRead_mem (c : Core) (n : Nat) : (c.advanceRead n).mem = c.mem ∧
    (c.advanceRead n).xb = c.xb ∧ (c.advanceRead n).stats = c.stats ∧
    (c.advanceRead n).pendingReset = c.pendingReset := by
  unfold Core.advanceRead; repeat' split
  all_goals exact ⟨rfl, rfl, rfl, rfl⟩

theorem finishRead_mem (c : Core) (b : Bool) (r : Range) (hp : c.pendingReset = false) :
    (c.finishRead b r).1.mem = c.mem ∧ (c.finishRead b r).1.xb = c.xb ∧
    (c.finishRead b r).1.stats.recordsCorrupted = c.stats.recordsCorrupted := by
  obtain ⟨a1, a2, a3, a4⟩ := advanceRead_mem c r.size
  have key : ∀ (d : Core) (w : Bool), d.pendingReset = false →
      ((if w then { d with drain := none } else d).maybeReset b).mem = d.mem ∧
      ((if w then { d with drain := none } else d).maybeReset b).xb = d.xb ∧
      ((if w then { d with drain := none } else d).maybeReset b).stats = d.stats := by
    intro d w hd; cases w <;> simp [Core.maybeReset, hd]
  unfold Core.finishRead
  simp only
  refine ⟨(key _ _ (by exact a4.trans hp)).1.trans a1, (key _ _ (by exact a4.trans hp)).2.1.trans a2, ?_⟩
  exact (congrArg Stats.recordsCorrupted (key _ _ (by exact a4.trans hp)).2.2).trans
    (by show (c.advanceRead r.size).stats.recordsCorrupted = _; rw [a3])

theorem startRead_ok {c c' : Core} {b1 b2 : Bool} {r : Range}
    (h : c.startRead b1 b2 none = (c', .ok r)) : c' = c ∧ c.pendingReset = false ∧ ∃ sz, sz ≠ 0 ∧
      ofLe32 (readMem c.mem (c.sizeOffset r.start) 4) = sz ∧ r.size = sz + c.xb := by
  unfold Core.startRead at h
  simp only [Option.isSome_none, Bool.false_eq_true, if_false] at h
  split at h
  · cases h
  · rename_i hpr
    split at h
    · split at h
      · split at h <;> cases h
      · cases h
    · split at h
      · rename_i n _ sz hsz
        injection h with h1 h2
        injection h2 with h2
        subst h2
        unfold Core.loadSize at hsz
        split at hsz
        · cases hsz
        · simp only at hsz
          split at hsz
          · cases hsz
          · rename_i hn
            injection hsz with hsz
            exact ⟨h1.symm, by simpa using hpr, sz, by rw [← hsz]; intro e; exact hn (Or.inl e), hsz, rfl⟩
      · split at h
        · cases h
        · split at h
          · split at h <;> cases h
          · cases h

theorem startReadCursor_ok {c c' : Core} {b1 b2 : Bool} {r : Range}
    (h : c.startReadCursor b1 b2 = (c', .ok r)) : c'.mem = c.mem ∧ c'.xb = c.xb ∧
      c'.stats = c.stats ∧ ∃ sz, sz ≠ 0 ∧
      ofLe32 (readMem c.mem (c.sizeOffset r.start) 4) = sz ∧ r.size = sz + c.xb := by
  unfold Core.startReadCursor at h
  simp only at h
  split at h
  · cases h
  · split at h
    · split at h
      · split at h <;> cases h
      · cases h
    · split at h
      · rename_i n _ sz hsz
        injection h with h1 h2
        injection h2 with h2
        subst h2
        unfold Core.loadSize at hsz
        split at hsz
        · cases hsz
        · simp only at hsz
          split at hsz
          · cases hsz
          · rename_i hn
            injection hsz with hsz
            refine ⟨?_, ?_, ?_, sz, by rw [← hsz]; intro e; exact hn (Or.inl e), hsz, rfl⟩ <;> rw [← h1] <;>
              unfold Core.advanceCursor <;> (repeat' split) <;> rfl
      · split at h
        · cases h
        · split at h
          · split at h <;> cases h
          · cases h

theorem plainLoop_checked {K : Crc} {block : Bool} : ∀ (fuel : Nat) {s s' : NV} {r : Range},
    s.crc = true → s.core.xb = 8 → s.plainLoop K block fuel = (s', .ok r) →
    ∃ zs : List Nat, s'.core.mem = zero4 (zs.foldl zero4 s.core.mem) r.start ∧
      (∃ sz, sz ≠ 0 ∧ ofLe32 (readMem (zs.foldl zero4 s.core.mem) (r.start + 4) 4) = sz ∧ r.size = sz + 8) ∧
      K.sum (readMem (zs.foldl zero4 s.core.mem) (r.start + 4) (r.size - 4)) =
        ofLe32 (readMem (zs.foldl zero4 s.core.mem) r.start 4) ∧
      s'.core.stats.recordsCorrupted = s.core.stats.recordsCorrupted + zs.length ∧ s'.core.xb = 8
  | 0, s, s', r, hc, hx, h => by simp [NV.plainLoop] at h
  | fuel + 1, s, s', r, hc, hx, h => by
    unfold NV.plainLoop at h
    split at h
    · rename_i c r' he
      obtain ⟨rfl, hpr, hsz⟩ := startRead_ok he
      rw [if_pos hc] at h
      simp only at h
      split at h
      · rename_i hk
        injection h with h1 h2
        injection h2 with h2
        subst h2
        subst h1
        unfold Core.recordCrc Core.storedCrc at hk
        unfold Core.sizeOffset at hsz
        rw [hx] at hk hsz
        refine ⟨[], ?_, hsz, hk, rfl, hx⟩
        simp only [Core.zeroExtra, hx]
        rfl
      · obtain ⟨f1, f2, f3⟩ := finishRead_mem
          { s.core.zeroExtra r'.start with stats := { (s.core.zeroExtra r'.start).stats with
            recordsCorrupted := (s.core.zeroExtra r'.start).stats.recordsCorrupted + 1 } } s.hasWrite r' hpr
        have := plainLoop_checked fuel (by exact hc) (by
          show (Core.finishRead _ _ _).1.xb = 8
          rw [f2]; exact hx) h
        obtain ⟨zs, g1, g2, g3, g4, g5⟩ := this
        have em : (({ s with core := (Core.finishRead
          { s.core.zeroExtra r'.start with stats := { (s.core.zeroExtra r'.start).stats with
            recordsCorrupted := (s.core.zeroExtra r'.start).stats.recordsCorrupted + 1 } }
            s.hasWrite r').1 } : NV).syncHdr K).core.mem = zero4 s.core.mem r'.start := by
          show (Core.finishRead _ _ _).1.mem = _
          rw [f1]
          simp only [Core.zeroExtra, hx]
          rfl
        rw [em] at g1 g2 g3
        refine ⟨r'.start :: zs, g1, g2, g3, ?_, g5⟩
        rw [g4]
        have : (({ s with core := (Core.finishRead
          { s.core.zeroExtra r'.start with stats := { (s.core.zeroExtra r'.start).stats with
            recordsCorrupted := (s.core.zeroExtra r'.start).stats.recordsCorrupted + 1 } }
            s.hasWrite r').1 } : NV).syncHdr K).core.stats.recordsCorrupted =
            s.core.stats.recordsCorrupted + 1 := by
          show (Core.finishRead _ _ _).1.stats.recordsCorrupted = _
          rw [f3]; rfl
        rw [this, List.length_cons]; omega
    · cases h
    · cases h

theorem cursorLoop_checked {K : Crc} {rs : List Range} {block : Bool} :
    ∀ (fuel : Nat) {s s' : NV} {r : Range},
    s.crc = true → s.core.xb = 8 → s.cursorLoop K rs block fuel = (s', .ok r) →
    s'.core.mem = s.core.mem ∧ s'.core.xb = 8 ∧
      (∃ sz, sz ≠ 0 ∧ ofLe32 (readMem s.core.mem (r.start + 4) 4) = sz ∧ r.size = sz + 8) ∧
      K.sum (readMem s.core.mem (r.start + 4) (r.size - 4)) = ofLe32 (readMem s.core.mem r.start 4)
  | 0, s, s', r, hc, hx, h => by simp [NV.cursorLoop] at h
  | fuel + 1, s, s', r, hc, hx, h => by
    unfold NV.cursorLoop at h
    split at h
    · rename_i c r' he
      obtain ⟨e1, e2, e3, hsz⟩ := startReadCursor_ok he
      split at h
      · have := cursorLoop_checked fuel (by exact hc) (by exact e2.trans hx) h
        simpa only [e1] using this
      · rename_i hk
        injection h with h1 h2
        injection h2 with h2
        subst h2
        subst h1
        have hk : c.recordCrc K r' = c.storedCrc r' := by
          by_cases hh : c.recordCrc K r' = c.storedCrc r'
          · exact hh
          · exact absurd ⟨hc, hh⟩ hk
        unfold Core.recordCrc Core.storedCrc at hk
        unfold Core.sizeOffset at hsz
        rw [e2, e1, hx] at hk
        rw [hx] at hsz
        exact ⟨e1, e2.trans hx, hsz, hk⟩
    · cases h
    · cases h

/-! ### The configuration never changes -/

/-- The part of the configuration that is in the core. -/
def Core.geo (c : Core) : Nat × Nat × Bool := (c.xb, c.len, c.overwrite)

theorem advanceRead_geo (c : Core) (n : Nat) : (c.advanceRead n).geo = c.geo := by
  unfold Core.advanceRead; (repeat' split) <;> rfl

theorem onTotalDataLoss_geo (c : Core) (b : Bool) : (c.onTotalDataLoss b).geo = c.geo := by
  unfold Core.onTotalDataLoss; simp only; split <;> rfl

theorem maybeReset_geo (c : Core) (b : Bool) : (c.maybeReset b).geo = c.geo := by
  unfold Core.maybeReset; split <;> rfl

theorem finishRead_geo (c : Core) (b : Bool) (r : Range) : (c.finishRead b r).1.geo = c.geo := by
  have key : ∀ (d : Core) (w : Bool),
      ((if w then { d with drain := none } else d).maybeReset b).geo = d.geo := by
    intro d w; rw [maybeReset_geo]; cases w <;> rfl
  unfold Core.finishRead
  simp only
  exact (key _ _).trans (advanceRead_geo c r.size)

theorem advanceForWrite_geo (busy : Bool) (t : Temp) (block : Bool) : ∀ (fuel : Nat) (c : Core),
    (c.advanceForWrite busy t block fuel).1.geo = c.geo
  | 0, c => rfl
  | fuel + 1, c => by
    unfold Core.advanceForWrite
    split
    · rfl
    · split
      · exact onTotalDataLoss_geo c busy
      · split
        · split
          · (repeat' split) <;> rfl
          · simp only
            rw [advanceForWrite_geo busy t block fuel, advanceRead_geo]
            rfl
        · rfl

theorem startReserve_geo (c : Core) (n : Nat) : (c.startReserve n).1.geo = c.geo := by
  unfold Core.startReserve; (repeat' split) <;> rfl

theorem startRead_geo (c : Core) (b1 b2 : Bool) (o : Option Range) :
    (c.startRead b1 b2 o).1.geo = c.geo := by
  unfold Core.startRead
  simp only
  (repeat' split) <;> first | rfl | exact onTotalDataLoss_geo _ _

theorem startReadCursor_geo (c : Core) (b1 b2 : Bool) :
    (c.startReadCursor b1 b2).1.geo = c.geo := by
  unfold Core.startReadCursor
  simp only
  (repeat' split) <;> first
    | rfl
    | exact onTotalDataLoss_geo _ _
    | (simp only; unfold Core.advanceCursor; (repeat' split) <;> rfl)

/-- The configuration of the buffer. -/
def NV.cfg (s : NV) : Bool × Nat × Nat × Bool := (s.crc, s.core.geo)

theorem withCore_cfg (K : Crc) (s : NV) {c : Core} (h : c.geo = s.core.geo) :
    (s.withCore K c).cfg = s.cfg := by
  unfold NV.withCore NV.cfg; split <;> simp [h]

theorem plainLoop_cfg (K : Crc) (block : Bool) : ∀ (fuel : Nat) (s : NV),
    (s.plainLoop K block fuel).1.cfg = s.cfg
  | 0, s => rfl
  | fuel + 1, s => by
    unfold NV.plainLoop
    have hx := startRead_geo s.core s.hasWrite block none
    split
    · rename_i c r he
      rw [he] at hx
      simp only at hx
      split
      · simp only
        split
        · exact congrArg (fun x => (s.crc, x)) hx
        · rw [plainLoop_cfg K block fuel]
          unfold NV.cfg NV.syncHdr
          simp only [finishRead_geo]
          exact congrArg (fun x => (s.crc, x)) hx
      · unfold NV.cfg; simp [hx]
    · rename_i he; rw [he] at hx; exact withCore_cfg K s hx
    · rename_i he; rw [he] at hx; exact withCore_cfg K s hx

theorem cursorLoop_cfg (K : Crc) (rs : List Range) (block : Bool) : ∀ (fuel : Nat) (s : NV),
    (s.cursorLoop K rs block fuel).1.cfg = s.cfg
  | 0, s => rfl
  | fuel + 1, s => by
    unfold NV.cursorLoop
    have hx := startReadCursor_geo s.core (s.hasRead || s.hasWrite) block
    split
    · rename_i c r he
      rw [he] at hx
      simp only at hx
      split
      · rw [cursorLoop_cfg K rs block fuel]
        exact congrArg (fun x => (s.crc, x)) hx
      · unfold NV.cfg; simp [hx]
    · rename_i he; rw [he] at hx; exact withCore_cfg K s hx
    · rename_i he; rw [he] at hx; exact withCore_cfg K s hx

theorem finishReservation_geo (c : Core) (a b : Nat) : (c.finishReservation a b).geo = c.geo := by
  unfold Core.finishReservation
  simp only
  (repeat' split) <;> rfl

theorem takeSpace_cfg (K : Crc) (s : NV) (t : Temp) (n : Nat) (b : Bool) :
    (s.takeSpace K t n b).1.cfg = s.cfg := by
  have hx := advanceForWrite_geo (s.hasRead || s.hasWrite) t b s.core.advanceFuel s.core
  unfold NV.takeSpace
  split
  · rename_i he; rw [he] at hx
    simp only [NV.cfg, NV.grant, NV.syncHdr, Core.applyReservation, finishReservation_geo]
    rw [← hx]; rfl
  · rename_i he; rw [he] at hx; exact withCore_cfg K s hx
  · rename_i he; rw [he] at hx; simp only [NV.cfg]; rw [← hx]

theorem passReader_cfg (K : Crc) (s : NV) (t : Temp) (n : Nat) (b : Bool) :
    (s.passReader K t n b).1.cfg = s.cfg := by
  unfold NV.passReader
  (repeat' split) <;> first | rfl | exact takeSpace_cfg K s t n b

theorem reopen_cfg {K : Crc} {s s' : NV} (h : s.reopen K = some s') : s'.cfg = s.cfg := by
  unfold NV.reopen at h
  split at h
  · cases h
  · injection h with h; rw [← h]; rfl

theorem step'_cfg (K : Crc) (s : NV) (op : NOp) : (s.step' K op).1.cfg = s.cfg := by
  cases op with
  | reserve n b =>
    show (s.reserve K n b).1.cfg = _
    unfold NV.reserve
    have hx := startReserve_geo s.core n
    split
    · rfl
    · rfl
    · split
      · rename_i he; rw [he] at hx; simp only [NV.cfg]; rw [← hx]
      · rename_i he; rw [he] at hx; rw [passReader_cfg]; simp only [NV.cfg]; rw [← hx]
  | resume =>
    show (s.resume K).1.cfg = _
    unfold NV.resume
    (repeat' split) <;> first
      | rfl
      | exact takeSpace_cfg ..
      | exact passReader_cfg ..
  | write o bs =>
    show (s.write o bs).1.cfg = _
    unfold NV.write
    (repeat' split) <;> rfl
  | commit =>
    show (s.commit K).1.cfg = _
    unfold NV.commit
    split
    · simp only [NV.cfg, NV.syncHdr, maybeReset_geo]
      unfold Core.writeCrc
      split <;> rfl
    · rfl
    · rfl
  | startRead b =>
    show (s.startRead K b).1.cfg = _
    unfold NV.startRead
    have hx := plainLoop_cfg K b s.core.advanceFuel s
    split
    · split <;> (rename_i he; rw [he] at hx; exact hx)
    · rfl
    · rfl
  | finishRead =>
    show (s.finishRead K).1.cfg = _
    unfold NV.finishRead
    split
    · rename_i r _
      have hx := finishRead_geo s.core s.hasWrite r
      show (s.crc, (s.core.finishRead s.hasWrite r).1.geo) = _
      rw [hx]; rfl
    · rfl
    · rfl
  | cursorRead b =>
    show (s.cursorRead K b).1.cfg = _
    unfold NV.cursorRead
    split
    · rename_i rs _
      have hx := cursorLoop_cfg K rs b s.core.advanceFuel s
      split <;> (rename_i he; rw [he] at hx; exact hx)
    · rfl
  | ack =>
    show (s.ack K).1.cfg = _
    unfold NV.ack
    split
    · rename_i r rs _
      have hx := finishRead_geo s.core (!rs.isEmpty || s.hasWrite) r
      show (s.crc, (s.core.finishRead (!rs.isEmpty || s.hasWrite) r).1.geo) = _
      rw [hx]; rfl
    · rfl
  | waitForDrain =>
    show NV.cfg { s with core := (s.core.waitForDrain s.hasRead).1 } = _
    unfold Core.waitForDrain
    split <;> rfl
  | shutdown =>
    show NV.cfg { s with core := s.core.doShutdown } = _
    unfold Core.doShutdown
    split <;> rfl
  | restart =>
    show (match s.reopen K with
      | some s => (s, Out.unit (.ok ()))
      | none => (s, .unit (.err .dataLoss))).1.cfg = _
    split
    · rename_i he; exact reopen_cfg he
    · rfl
  | registerProducer => unfold NV.step'; simp only; split <;> rfl
  | registerConsumer => unfold NV.step'; simp only; split <;> rfl
  | registerCursor => unfold NV.step'; simp only; (repeat' split) <;> rfl
  | _ => rfl

theorem step_cfg (K : Crc) (s : NV) (op : NOp) : (s.step K op).1.cfg = s.cfg := by
  unfold NV.step
  split
  · rfl
  · exact step'_cfg K s op

theorem run_cfg (K : Crc) : ∀ (ops : List NOp) (s : NV), (s.run K ops).1.cfg = s.cfg
  | [], _ => rfl
  | op :: ops, s => (run_cfg K ops _).trans (step_cfg K s op)

theorem nvAfter_cfg (K : Crc) (len : Nat) (overwrite blockOnRead : Bool) (ops : List NOp) :
    (nvAfter K len true overwrite blockOnRead ops).crc = true ∧
    (nvAfter K len true overwrite blockOnRead ops).core.xb = 8 := by
  have := run_cfg K ops (NV.new K len true overwrite blockOnRead)
  exact ⟨congrArg Prod.fst this, congrArg (fun x => x.2.1) this⟩

end Verif.Buffer
