import Verif.Buffer.Counters
import Verif.Buffer.TraceLemmas
import Verif.Buffer.NVProps

/-
C106: the counters of the ring buffers.
-/
namespace Verif.Buffer

/-! ### The parts of `Core` -/

/-- `next_read_start` and `committed_write_start` are set together. -/
def Paired (c : Core) : Prop := c.nrs.isSome = c.cws.isSome

theorem advanceRead_paired {c : Core} (h : Paired c) (n : Nat) : Paired (c.advanceRead n) := by
  unfold Core.advanceRead
  split
  · rename_i hn hw
    split
    · split
      · simp [Paired, hw]
      · simp [Paired, hw]
    · rfl
  · exact h

theorem advanceRead_same (c : Core) (n : Nat) : (c.advanceRead n).stats = c.stats ∧ (c.advanceRead n).xb = c.xb ∧ (c.advanceRead n).overwrite = c.overwrite ∧
    (c.advanceRead n).pendingReset = c.pendingReset ∧ (c.advanceRead n).len = c.len := by
  obtain ⟨a, b, l, p, h⟩ := advanceRead_frame c n
  rw [h]
  exact ⟨rfl, rfl, rfl, rfl, rfl⟩

/-- What is left to pass for a write. -/
def togo (c : Core) : Nat :=
  match c.nrs with
  | none => 0
  | some n => (if c.lweb.isSome then c.len else 0) + (c.len - n) + 1

/-- The result of looking for space: the counters, and what they say about the result. -/
theorem advanceForWrite_counts (busy : Bool) (t : Temp) (block : Bool) : ∀ (fuel : Nat) (c : Core), Paired c → togo c < fuel → 4 ≤ c.xb →
    ∃ ro bo rr br td, (c.advanceForWrite busy t block fuel).1.stats =
        { c.stats with recordsOverwritten := ro, bytesOverwritten := bo, recordsRefused := rr, bytesRefused := br, totalDataLoss := td } ∧
      (c.advanceForWrite busy t block fuel).1.xb = c.xb ∧ (c.advanceForWrite busy t block fuel).1.overwrite = c.overwrite ∧
      Paired (c.advanceForWrite busy t block fuel).1 ∧
      ((rr = c.stats.recordsRefused ∧ br = c.stats.bytesRefused ∧ td = c.stats.totalDataLoss ∧
          (c.advanceForWrite busy t block fuel).1.pendingReset = c.pendingReset ∧
          ((∃ u, (c.advanceForWrite busy t block fuel).2 = .ok u) ∨ (c.advanceForWrite busy t block fuel).2 = .blocked ∨
            (c.advanceForWrite busy t block fuel).2 = .err .aborted ∨
            (c.advanceForWrite busy t block fuel).2 = .err .unavailable ∧ block = false ∧ c.overwrite = false)) ∨
        (rr = c.stats.recordsRefused + 1 ∧ br = c.stats.bytesRefused + t.range.size ∧ td = c.stats.totalDataLoss + 1 ∧
          (c.advanceForWrite busy t block fuel).2 = .err .unavailable)) := by
  intro fuel
  induction fuel with
  | zero => intro c _ h; omega
  | succ fuel ih =>
    intro c hp hf hxb
    unfold Core.advanceForWrite
    split
    · exact ⟨_, _, _, _, _, rfl, rfl, rfl, hp, Or.inl ⟨rfl, rfl, rfl, rfl, Or.inl ⟨_, rfl⟩⟩⟩
    · rename_i n hn
      cases hs : c.loadSize n with
      | none =>
        dsimp only
        refine ⟨c.stats.recordsOverwritten, c.stats.bytesOverwritten, _, _, _, ?_, ?_, ?_, ?_, Or.inr ⟨rfl, rfl, rfl, rfl⟩⟩
        · unfold Core.onTotalDataLoss
          split <;> rfl
        · unfold Core.onTotalDataLoss
          split <;> rfl
        · unfold Core.onTotalDataLoss
          split <;> rfl
        · unfold Core.onTotalDataLoss
          split
          · exact hp
          · rfl
      | some sz =>
        dsimp only
        split
        · split
          · split
            · rename_i hov hb
              exact ⟨_, _, _, _, _, rfl, rfl, rfl, hp, Or.inl ⟨rfl, rfl, rfl, rfl, Or.inr (Or.inr (Or.inr ⟨rfl, by simpa using hb, by simpa using hov⟩))⟩⟩
            · split
              · exact ⟨_, _, _, _, _, rfl, rfl, rfl, hp, Or.inl ⟨rfl, rfl, rfl, rfl, Or.inr (Or.inr (Or.inl rfl))⟩⟩
              · exact ⟨_, _, _, _, _, rfl, rfl, rfl, hp, Or.inl ⟨rfl, rfl, rfl, rfl, Or.inr (Or.inl rfl)⟩⟩
          · -- overwritten
            have hsz : 0 < sz ∧ n + c.xb + sz ≤ c.len := by
              unfold Core.loadSize at hs
              dsimp only at hs
              split at hs
              · cases hs
              · split at hs
                · cases hs
                · cases hs
                  rename_i h1
                  omega
            generalize hc1 : (({ c with stats := { c.stats with
              recordsOverwritten := c.stats.recordsOverwritten + 1
              bytesOverwritten := c.stats.bytesOverwritten + sz } } : Core).zeroExtra n) = c1
            have e1 : c1.nrs = some n := by rw [← hc1]; exact hn
            have e2 : c1.cws = c.cws := by rw [← hc1]; rfl
            have e3 : c1.lweb = c.lweb := by rw [← hc1]; rfl
            have e4 : c1.len = c.len := by rw [← hc1]; rfl
            have e5 : c1.xb = c.xb := by rw [← hc1]; rfl
            have e6 : c1.overwrite = c.overwrite := by rw [← hc1]; rfl
            have e7 : c1.pendingReset = c.pendingReset := by rw [← hc1]; rfl
            have e8 : c1.stats = { c.stats with recordsOverwritten := c.stats.recordsOverwritten + 1, bytesOverwritten := c.stats.bytesOverwritten + sz } := by
              rw [← hc1]; rfl
            have hp1 : Paired c1 := by
              unfold Paired at hp ⊢
              rw [e1, e2, ← hp, hn]
            obtain ⟨w, hw⟩ : ∃ w, c1.cws = some w := by
              have : c1.cws.isSome = true := by rw [← hp1, e1]; rfl
              exact Option.isSome_iff_exists.1 this
            have hlt : togo (c1.advanceRead (sz + c.xb)) < fuel := by
              have hf' : (if c.lweb.isSome then c.len else 0) + (c.len - n) + 1 < fuel + 1 := by
                unfold togo at hf
                rw [hn] at hf
                exact hf
              unfold Core.advanceRead
              rw [e1, hw]
              dsimp only
              split
              · split
                · rename_i hl
                  rw [e3] at hl
                  rw [hl] at hf'
                  simp only [Option.isSome_some, if_true] at hf'
                  simp only [togo, Option.isSome_none, Bool.false_eq_true, if_false, e4]
                  omega
                · simp only [togo, e3, e4]
                  omega
              · simp only [togo]
                omega
            obtain ⟨f1, f2, f3, f4, f5⟩ := advanceRead_same c1 (sz + c.xb)
            obtain ⟨ro, bo, rr, br, td, g1, g2, g3, g4, g5⟩ := ih (c1.advanceRead (sz + c.xb)) (advanceRead_paired hp1 _) hlt (by rw [f2, e5]; exact hxb)
            have e5' : ({ c with stats := { c.stats with
              recordsOverwritten := c.stats.recordsOverwritten + 1
              bytesOverwritten := c.stats.bytesOverwritten + sz } } : Core).xb = c.xb := rfl
            refine ⟨ro, bo, rr, br, td, ?_, ?_, ?_, ?_, ?_⟩
            · rw [g1, f1, e8]
            · rw [g2, f2, e5]
            · rw [g3, f3, e6]
            · exact g4
            · rw [f1, e8, f3, f4, e6, e7] at g5
              exact g5
        · exact ⟨_, _, _, _, _, rfl, rfl, rfl, hp, Or.inl ⟨rfl, rfl, rfl, rfl, Or.inl ⟨_, rfl⟩⟩⟩

/-- A reset is pending only after a loss was counted. -/
def Pend (c : Core) : Prop := c.stats.totalDataLoss = 0 → c.pendingReset = false

/-- What does not change, and the two invariants of the indices. -/
structure Kept (c c' : Core) : Prop where
  xb : c'.xb = c.xb
  ow : c'.overwrite = c.overwrite
  pair : Paired c → Paired c'
  pend : Pend c → Pend c'

theorem Kept.refl (c : Core) : Kept c c := ⟨rfl, rfl, id, id⟩

theorem Kept.trans {a b c : Core} (h : Kept a b) (h' : Kept b c) : Kept a c :=
  ⟨h'.xb.trans h.xb, h'.ow.trans h.ow, h'.pair ∘ h.pair, h'.pend ∘ h.pend⟩

theorem reset_calm (c : Core) : Kept c c.totalReset := ⟨rfl, rfl, fun _ => rfl, id⟩

theorem loss_calm (c : Core) (busy : Bool) : Kept c (c.onTotalDataLoss busy) := by
  unfold Core.onTotalDataLoss
  refine ⟨?_, ?_, ?_, ?_⟩
  · split <;> rfl
  · split <;> rfl
  · intro h
    split
    · exact h
    · rfl
  · intro _
    split
    · intro h
      exact absurd h (Nat.succ_ne_zero _)
    · intro h
      exact absurd h (Nat.succ_ne_zero _)

theorem maybeReset_calm (c : Core) (busy : Bool) : Kept c (c.maybeReset busy) ∧ (c.maybeReset busy).stats = c.stats := by
  unfold Core.maybeReset
  split
  · exact ⟨⟨rfl, rfl, fun _ => rfl, fun _ _ => rfl⟩, rfl⟩
  · exact ⟨Kept.refl _, rfl⟩

theorem advanceCommitted_calm (c : Core) (r : Range) : Kept c (c.advanceCommitted r) := by
  refine ⟨rfl, rfl, fun _ => ?_, id⟩
  unfold Core.advanceCommitted Paired
  dsimp only
  cases c.nrs <;> rfl

theorem loss_stats (c : Core) (busy : Bool) : (c.onTotalDataLoss busy).stats = { c.stats with totalDataLoss := c.stats.totalDataLoss + 1 } := by
  unfold Core.onTotalDataLoss
  split <;> rfl

/-- Starting a read counts nothing but a loss. -/
theorem startRead_counts (c : Core) (busy block : Bool) (q : Option Range) :
    Kept c (c.startRead busy block q).1 ∧ (∃ td, (c.startRead busy block q).1.stats = { c.stats with totalDataLoss := td } ∧ c.stats.totalDataLoss ≤ td) ∧
      ∀ r, (c.startRead busy block q).2 = .ok r → c.xb ≤ r.size := by
  unfold Core.startRead
  split
  · exact ⟨Kept.refl _, ⟨_, rfl, Nat.le_refl _⟩, nofun⟩
  split
  · exact ⟨Kept.refl _, ⟨_, rfl, Nat.le_refl _⟩, nofun⟩
  dsimp only
  split
  · split
    · split
      · exact ⟨Kept.refl _, ⟨_, rfl, Nat.le_refl _⟩, nofun⟩
      · exact ⟨Kept.refl _, ⟨_, rfl, Nat.le_refl _⟩, nofun⟩
    · exact ⟨⟨rfl, rfl, id, id⟩, ⟨_, rfl, Nat.le_refl _⟩, nofun⟩
  · split
    · refine ⟨Kept.refl _, ⟨_, rfl, Nat.le_refl _⟩, ?_⟩
      intro r hr
      cases hr
      exact Nat.le_add_left ..
    · have h1 := loss_calm c busy
      have h2 := loss_stats c busy
      split
      · exact ⟨h1, ⟨_, h2, Nat.le_succ _⟩, nofun⟩
      · split
        · split
          · exact ⟨h1, ⟨_, h2, Nat.le_succ _⟩, nofun⟩
          · exact ⟨h1, ⟨_, h2, Nat.le_succ _⟩, nofun⟩
        · exact ⟨⟨h1.xb, h1.ow, h1.pair, h1.pend⟩, ⟨_, h2, Nat.le_succ _⟩, nofun⟩

theorem advanceCursor_calm (c : Core) (n : Nat) : Kept c (c.advanceCursor n) ∧ (c.advanceCursor n).stats = c.stats := by
  unfold Core.advanceCursor
  split
  · split
    · split
      · exact ⟨⟨rfl, rfl, id, id⟩, rfl⟩
      · exact ⟨⟨rfl, rfl, id, id⟩, rfl⟩
    · exact ⟨⟨rfl, rfl, id, id⟩, rfl⟩
  · exact ⟨⟨rfl, rfl, id, id⟩, rfl⟩

theorem startReadCursor_counts (c : Core) (busy block : Bool) :
    Kept c (c.startReadCursor busy block).1 ∧ (∃ td, (c.startReadCursor busy block).1.stats = { c.stats with totalDataLoss := td } ∧ c.stats.totalDataLoss ≤ td) ∧
      ∀ r, (c.startReadCursor busy block).2 = .ok r → c.xb ≤ r.size := by
  unfold Core.startReadCursor
  split
  · exact ⟨Kept.refl _, ⟨_, rfl, Nat.le_refl _⟩, nofun⟩
  dsimp only
  split
  · split
    · split
      · exact ⟨Kept.refl _, ⟨_, rfl, Nat.le_refl _⟩, nofun⟩
      · exact ⟨Kept.refl _, ⟨_, rfl, Nat.le_refl _⟩, nofun⟩
    · exact ⟨⟨rfl, rfl, id, id⟩, ⟨_, rfl, Nat.le_refl _⟩, nofun⟩
  · split
    · refine ⟨(advanceCursor_calm c _).1, ⟨_, (advanceCursor_calm c _).2, Nat.le_refl _⟩, ?_⟩
      intro r hr
      cases hr
      exact Nat.le_add_left ..
    · have h1 := loss_calm c busy
      have h2 := loss_stats c busy
      split
      · exact ⟨h1, ⟨_, h2, Nat.le_succ _⟩, nofun⟩
      · split
        · split
          · exact ⟨h1, ⟨_, h2, Nat.le_succ _⟩, nofun⟩
          · exact ⟨h1, ⟨_, h2, Nat.le_succ _⟩, nofun⟩
        · exact ⟨⟨h1.xb, h1.ow, h1.pair, h1.pend⟩, ⟨_, h2, Nat.le_succ _⟩, nofun⟩

theorem finishRead_counts (c : Core) (busy : Bool) (r : Range) : Kept c (c.finishRead busy r).1 ∧ (c.finishRead busy r).1.stats =
    { c.stats with totalBytesRead := c.stats.totalBytesRead + r.size, recordsRead := c.stats.recordsRead + 1, bytesRead := c.stats.bytesRead + (r.size - c.xb) } := by
  obtain ⟨f1, f2, f3, f4, f5⟩ := advanceRead_same c r.size
  have hA : Kept c { c.advanceRead r.size with stats := { (c.advanceRead r.size).stats with
      totalBytesRead := (c.advanceRead r.size).stats.totalBytesRead + r.size
      recordsRead := (c.advanceRead r.size).stats.recordsRead + 1
      bytesRead := (c.advanceRead r.size).stats.bytesRead + (r.size - (c.advanceRead r.size).xb) } } := by
    refine ⟨f2, f3, fun h => advanceRead_paired h _, fun h => ?_⟩
    unfold Pend at *
    dsimp only
    rw [f1, f4]
    exact h
  unfold Core.finishRead
  dsimp only
  split
  · refine ⟨Kept.trans ?_ (maybeReset_calm _ _).1, ?_⟩
    · exact ⟨hA.xb, hA.ow, hA.pair, hA.pend⟩
    rw [(maybeReset_calm _ _).2]
    dsimp only
    rw [f1, f2]
  · refine ⟨Kept.trans hA (maybeReset_calm _ _).1, ?_⟩
    rw [(maybeReset_calm _ _).2]
    dsimp only
    rw [f1, f2]

theorem applyReservation_counts (c : Core) (t : Temp) (size : Nat) : Kept c (c.applyReservation t size) ∧ (c.applyReservation t size).stats = c.stats := by
  unfold Core.applyReservation
  dsimp only
  rw [finishReservation_eq]
  exact ⟨⟨rfl, rfl, id, id⟩, rfl⟩

theorem writeCrc_counts (K : Crc) (c : Core) (b : Bool) (r : Range) : Kept c (c.writeCrc K b r) ∧ (c.writeCrc K b r).stats = c.stats := by
  unfold Core.writeCrc
  split
  · exact ⟨⟨rfl, rfl, id, id⟩, rfl⟩
  · exact ⟨Kept.refl _, rfl⟩

theorem withCore_core (K : Crc) (s : NV) (c : Core) : (s.withCore K c).core = c ∧ (s.withCore K c).crc = s.crc ∧ (s.withCore K c).producer = s.producer ∧
    (s.withCore K c).parked = s.parked ∧ (s.withCore K c).consumer = s.consumer := by
  unfold NV.withCore
  split <;> exact ⟨rfl, rfl, rfl, rfl, rfl⟩

/-- Reading with a plain consumer: `k` corrupt records of `b` bytes are counted as read and as corrupt. -/
theorem plainLoop_counts (K : Crc) (block : Bool) : ∀ (fuel : Nat) (s : NV),
    Kept s.core (s.plainLoop K block fuel).1.core ∧ (s.plainLoop K block fuel).1.crc = s.crc ∧ (s.plainLoop K block fuel).1.producer = s.producer ∧
      (s.plainLoop K block fuel).1.parked = s.parked ∧
      (∃ k b td, (s.plainLoop K block fuel).1.core.stats = { s.core.stats with
          recordsRead := s.core.stats.recordsRead + k
          bytesRead := s.core.stats.bytesRead + b
          totalBytesRead := s.core.stats.totalBytesRead + (b + s.core.xb * k)
          recordsCorrupted := s.core.stats.recordsCorrupted + k
          totalDataLoss := td } ∧ s.core.stats.totalDataLoss ≤ td ∧ (k = 0 → b = 0) ∧ (s.crc = false → k = 0)) ∧
      ((∃ r, (s.plainLoop K block fuel).2 = .ok r ∧ (s.plainLoop K block fuel).1.consumer = some (.plain (some r)) ∧ s.core.xb ≤ r.size) ∨
        (∀ r, (s.plainLoop K block fuel).2 ≠ .ok r) ∧ (s.plainLoop K block fuel).1.consumer = s.consumer) := by
  intro fuel
  induction fuel with
  | zero => intro s; exact ⟨⟨rfl, rfl, id, id⟩, rfl, rfl, rfl, ⟨0, 0, _, rfl, Nat.le_refl _, fun _ => rfl, fun _ => rfl⟩, Or.inr ⟨nofun, rfl⟩⟩
  | succ fuel ih =>
    intro s
    unfold NV.plainLoop
    obtain ⟨h1, ⟨td, h2, htd⟩, h3⟩ := startRead_counts s.core s.hasWrite block none
    generalize hq : s.core.startRead s.hasWrite block none = q at h1 h2 h3
    obtain ⟨c, res⟩ := q
    dsimp only at h1 h2 h3
    cases res with
    | err e =>
      obtain ⟨w1, w2, w3, w4, w5⟩ := withCore_core K s c
      dsimp only
      rw [w1, w2, w3, w4, w5]
      exact ⟨h1, rfl, rfl, rfl, ⟨0, 0, td, h2, htd, fun _ => rfl, fun _ => rfl⟩, Or.inr ⟨nofun, rfl⟩⟩
    | blocked =>
      obtain ⟨w1, w2, w3, w4, w5⟩ := withCore_core K s c
      dsimp only
      rw [w1, w2, w3, w4, w5]
      exact ⟨h1, rfl, rfl, rfl, ⟨0, 0, td, h2, htd, fun _ => rfl, fun _ => rfl⟩, Or.inr ⟨nofun, rfl⟩⟩
    | ok r =>
      have hr := h3 r rfl
      dsimp only
      split
      · rename_i hcrc
        split
        · exact ⟨⟨h1.xb, h1.ow, h1.pair, h1.pend⟩, rfl, rfl, rfl, ⟨0, 0, td, h2, htd, fun _ => rfl, fun _ => rfl⟩, Or.inl ⟨r, rfl, rfl, hr⟩⟩
        · generalize hc2 : ({ c.zeroExtra r.start with stats := { (c.zeroExtra r.start).stats with
              recordsCorrupted := (c.zeroExtra r.start).stats.recordsCorrupted + 1 } } : Core) = c2
          have hA : Kept c c2 := by rw [← hc2]; exact ⟨rfl, rfl, id, id⟩
          have hS : c2.stats = { c.stats with recordsCorrupted := c.stats.recordsCorrupted + 1 } := by rw [← hc2]; rfl
          obtain ⟨hF, hFs⟩ := finishRead_counts c2 s.hasWrite r
          obtain ⟨i1, i2, i3, i4, ⟨k, b, td', i5, i6, i7, i8⟩, i9⟩ := ih (({ s with core := (c2.finishRead s.hasWrite r).1 } : NV).syncHdr K)
          have hcs : (({ s with core := (c2.finishRead s.hasWrite r).1 } : NV).syncHdr K).core = (c2.finishRead s.hasWrite r).1 := rfl
          have hst : (c2.finishRead s.hasWrite r).1.stats = { s.core.stats with
              recordsRead := s.core.stats.recordsRead + 1
              bytesRead := s.core.stats.bytesRead + (r.size - s.core.xb)
              totalBytesRead := s.core.stats.totalBytesRead + r.size
              recordsCorrupted := s.core.stats.recordsCorrupted + 1
              totalDataLoss := td } := by
            rw [hFs, hS, h2, hA.xb, h1.xb]
          have hxb : (c2.finishRead s.hasWrite r).1.xb = s.core.xb := by rw [hF.xb, hA.xb, h1.xb]
          refine ⟨h1.trans (hA.trans (hF.trans i1)), i2, i3, i4, ⟨k + 1, b + (r.size - s.core.xb), td', ?_, ?_, ?_, ?_⟩, ?_⟩
          · rw [i5, hcs, hst, hxb]
            dsimp only
            rw [Stats.mk.injEq]
            refine ⟨rfl, rfl, rfl, ?_, ?_, ?_, rfl, rfl, rfl, rfl, ?_, rfl⟩
            · omega
            · omega
            · have : s.core.xb * (k + 1) = s.core.xb * k + s.core.xb := Nat.mul_succ ..
              omega
            · omega
          · rw [hcs, hst] at i6
            exact Nat.le_trans htd i6
          · omega
          · intro h; rw [hcrc] at h; cases h
          · rw [hcs, hxb] at i9
            exact i9
      · exact ⟨⟨h1.xb, h1.ow, h1.pair, h1.pend⟩, rfl, rfl, rfl, ⟨0, 0, td, h2, htd, fun _ => rfl, fun _ => rfl⟩, Or.inl ⟨r, rfl, rfl, hr⟩⟩

/-- Reading with a cursor consumer. -/
theorem cursorLoop_counts (K : Crc) (rs : List Range) (block : Bool) : ∀ (fuel : Nat) (s : NV),
    Kept s.core (s.cursorLoop K rs block fuel).1.core ∧ (s.cursorLoop K rs block fuel).1.crc = s.crc ∧ (s.cursorLoop K rs block fuel).1.producer = s.producer ∧
      (s.cursorLoop K rs block fuel).1.parked = s.parked ∧
      (∃ k td, (s.cursorLoop K rs block fuel).1.core.stats = { s.core.stats with
          recordsCorrupted := s.core.stats.recordsCorrupted + k
          totalDataLoss := td } ∧ s.core.stats.totalDataLoss ≤ td ∧ (s.crc = false → k = 0)) ∧
      ((∃ r, (s.cursorLoop K rs block fuel).2 = .ok r ∧ (s.cursorLoop K rs block fuel).1.consumer = some (.cursor (rs ++ [r])) ∧ s.core.xb ≤ r.size) ∨
        (∀ r, (s.cursorLoop K rs block fuel).2 ≠ .ok r) ∧ (s.cursorLoop K rs block fuel).1.consumer = s.consumer) := by
  intro fuel
  induction fuel with
  | zero => intro s; exact ⟨⟨rfl, rfl, id, id⟩, rfl, rfl, rfl, ⟨0, _, rfl, Nat.le_refl _, fun _ => rfl⟩, Or.inr ⟨nofun, rfl⟩⟩
  | succ fuel ih =>
    intro s
    unfold NV.cursorLoop
    obtain ⟨h1, ⟨td, h2, htd⟩, h3⟩ := startReadCursor_counts s.core (s.hasRead || s.hasWrite) block
    generalize hq : s.core.startReadCursor (s.hasRead || s.hasWrite) block = q at h1 h2 h3
    obtain ⟨c, res⟩ := q
    dsimp only at h1 h2 h3
    cases res with
    | err e =>
      obtain ⟨w1, w2, w3, w4, w5⟩ := withCore_core K s c
      dsimp only
      rw [w1, w2, w3, w4, w5]
      exact ⟨h1, rfl, rfl, rfl, ⟨0, td, h2, htd, fun _ => rfl⟩, Or.inr ⟨nofun, rfl⟩⟩
    | blocked =>
      obtain ⟨w1, w2, w3, w4, w5⟩ := withCore_core K s c
      dsimp only
      rw [w1, w2, w3, w4, w5]
      exact ⟨h1, rfl, rfl, rfl, ⟨0, td, h2, htd, fun _ => rfl⟩, Or.inr ⟨nofun, rfl⟩⟩
    | ok r =>
      have hr := h3 r rfl
      dsimp only
      split
      · rename_i hcrc
        generalize hc2 : ({ c with stats := { c.stats with recordsCorrupted := c.stats.recordsCorrupted + 1 } } : Core) = c2
        have hA : Kept c c2 := by rw [← hc2]; exact ⟨rfl, rfl, id, id⟩
        have hS : c2.stats = { c.stats with recordsCorrupted := c.stats.recordsCorrupted + 1 } := by rw [← hc2]
        obtain ⟨i1, i2, i3, i4, ⟨k, td', i5, i6, i8⟩, i9⟩ := ih { s with core := c2 }
        refine ⟨h1.trans (hA.trans i1), i2, i3, i4, ⟨k + 1, td', ?_, ?_, ?_⟩, ?_⟩
        · rw [i5]
          dsimp only
          rw [hS, h2, Stats.mk.injEq]
          refine ⟨rfl, rfl, rfl, rfl, rfl, rfl, rfl, rfl, rfl, rfl, ?_, rfl⟩
          dsimp only
          omega
        · dsimp only at i6
          rw [hS, h2] at i6
          exact Nat.le_trans htd i6
        · intro h; rw [hcrc.1] at h; cases h
        · dsimp only at i9
          rw [hA.xb, h1.xb] at i9
          exact i9
      · exact ⟨h1, rfl, rfl, rfl, ⟨0, td, h2, htd, fun _ => rfl⟩, Or.inl ⟨r, rfl, rfl, hr⟩⟩

/-! ### Refusals -/

/-- The counters of refusals against the refusals seen.  `loss` are the sizes of the requests that were refused because the records were lost. -/
def Refs (xb : Nat) (ow : Bool) (rr br td : Nat) (refs : List (Nat × Bool × Code)) : Prop :=
  (∀ x ∈ refs, x.2.2 = .failedPrecondition ∨ x.2.2 = .resourceExhausted ∨ x.2.2 = .invalidArgument ∨ x.2.2 = .unavailable ∨ x.2.2 = .aborted) ∧
  ∃ loss : List Nat, ∃ extra ≤ xb * loss.length,
    rr = (refusedWith refs [.failedPrecondition, .resourceExhausted, .invalidArgument]).length + loss.length ∧
    br = ((refusedWith refs [.failedPrecondition, .resourceExhausted]).map (·.1)).sum + loss.sum + extra ∧
    loss.Sublist ((refusedWith refs [.unavailable]).map (·.1)) ∧
    (((refusedWith refs [.unavailable]).filter fun x => x.2.1 || ow).map (·.1)).Sublist loss ∧
    (td = 0 → loss = [])

theorem refusedWith_append (a b : List (Nat × Bool × Code)) (codes : List Code) : refusedWith (a ++ b) codes = refusedWith a codes ++ refusedWith b codes :=
  List.filter_append ..

variable {xb : Nat} {ow : Bool} {rr br td : Nat} {refs : List (Nat × Bool × Code)}

theorem Refs.mono (h : Refs xb ow rr br td refs) {td' : Nat} (ht : td ≤ td') : Refs xb ow rr br td' refs := by
  obtain ⟨h0, loss, extra, h1, h2, h3, h4, h5, h6⟩ := h
  exact ⟨h0, loss, extra, h1, h2, h3, h4, h5, fun h => h6 (by omega)⟩

theorem Refs.counted (h : Refs xb ow rr br td refs) (size : Nat) (b : Bool) {e : Code} (he : e = .failedPrecondition ∨ e = .resourceExhausted) :
    Refs xb ow (rr + 1) (br + size) td (refs ++ [(size, b, e)]) := by
  obtain ⟨h0, loss, extra, h1, h2, h3, h4, h5, h6⟩ := h
  refine ⟨?_, loss, extra, h1, ?_, ?_, ?_, ?_, h6⟩
  · intro x hx
    rcases List.mem_append.1 hx with hx | hx
    · exact h0 x hx
    · obtain rfl := List.mem_singleton.1 hx
      rcases he with rfl | rfl
      · exact Or.inl rfl
      · exact Or.inr (Or.inl rfl)
  · rw [refusedWith_append, List.length_append, h2]
    rcases he with rfl | rfl <;> simp [refusedWith] <;> omega
  · rw [refusedWith_append, List.map_append, List.sum_append, h3]
    rcases he with rfl | rfl <;> simp [refusedWith] <;> omega
  · rw [refusedWith_append]
    rcases he with rfl | rfl <;> simpa [refusedWith] using h4
  · rw [refusedWith_append]
    rcases he with rfl | rfl <;> simpa [refusedWith] using h5

theorem Refs.invalid (h : Refs xb ow rr br td refs) (size : Nat) (b : Bool) : Refs xb ow (rr + 1) br td (refs ++ [(size, b, .invalidArgument)]) := by
  obtain ⟨h0, loss, extra, h1, h2, h3, h4, h5, h6⟩ := h
  refine ⟨?_, loss, extra, h1, ?_, ?_, ?_, ?_, h6⟩
  · intro x hx
    rcases List.mem_append.1 hx with hx | hx
    · exact h0 x hx
    · obtain rfl := List.mem_singleton.1 hx
      exact Or.inr (Or.inr (Or.inl rfl))
  · rw [refusedWith_append, List.length_append, h2]
    simp [refusedWith]; omega
  · rw [refusedWith_append, List.map_append, List.sum_append, h3]
    simp [refusedWith]
  · rw [refusedWith_append]
    simpa [refusedWith] using h4
  · rw [refusedWith_append]
    simpa [refusedWith] using h5

theorem Refs.uncounted (h : Refs xb ow rr br td refs) (size : Nat) (b : Bool) {e : Code} (he : e = .aborted ∨ e = .unavailable ∧ b = false ∧ ow = false) :
    Refs xb ow rr br td (refs ++ [(size, b, e)]) := by
  obtain ⟨h0, loss, extra, h1, h2, h3, h4, h5, h6⟩ := h
  refine ⟨?_, loss, extra, h1, ?_, ?_, ?_, ?_, h6⟩
  · intro x hx
    rcases List.mem_append.1 hx with hx | hx
    · exact h0 x hx
    · obtain rfl := List.mem_singleton.1 hx
      rcases he with rfl | ⟨rfl, _, _⟩
      · exact Or.inr (Or.inr (Or.inr (Or.inr rfl)))
      · exact Or.inr (Or.inr (Or.inr (Or.inl rfl)))
  · rw [refusedWith_append, List.length_append, h2]
    rcases he with rfl | ⟨rfl, _, _⟩ <;> simp [refusedWith]
  · rw [refusedWith_append, List.map_append, List.sum_append, h3]
    rcases he with rfl | ⟨rfl, _, _⟩ <;> simp [refusedWith]
  · rw [refusedWith_append, List.map_append]
    exact h4.trans (List.sublist_append_left ..)
  · rw [refusedWith_append]
    rcases he with rfl | ⟨rfl, rfl, rfl⟩ <;> simpa [refusedWith] using h5

theorem Refs.lost (h : Refs xb ow rr br td refs) (size : Nat) (b : Bool) {n td' : Nat} (hn : size ≤ n ∧ n ≤ size + xb) (ht : td' ≠ 0) :
    Refs xb ow (rr + 1) (br + n) td' (refs ++ [(size, b, .unavailable)]) := by
  obtain ⟨h0, loss, extra, h1, h2, h3, h4, h5, h6⟩ := h
  refine ⟨?_, loss ++ [size], extra + (n - size), ?_, ?_, ?_, ?_, ?_, fun h => absurd h ht⟩
  · intro x hx
    rcases List.mem_append.1 hx with hx | hx
    · exact h0 x hx
    · obtain rfl := List.mem_singleton.1 hx
      exact Or.inr (Or.inr (Or.inr (Or.inl rfl)))
  · rw [List.length_append, Nat.mul_add]
    simp only [List.length_singleton, Nat.mul_one]
    omega
  · rw [refusedWith_append, List.length_append, h2]
    simp [refusedWith]; omega
  · rw [refusedWith_append, List.map_append, List.sum_append, h3]
    simp [refusedWith]; omega
  · rw [refusedWith_append, List.map_append]
    exact h4.append (List.Sublist.refl _)
  · rw [refusedWith_append, List.filter_append, List.map_append]
    refine h5.append ?_
    cases b <;> cases ow <;> simp [refusedWith]

/-! ### The invariant -/

/-- The counters that an observer can check. -/
structure Counts (xb : Nat) (ow crc : Bool) (st : Stats) (l : Tally) : Prop where
  wr : st.recordsWritten = l.written.length
  wb : st.bytesWritten = l.written.sum
  wt : st.totalBytesWritten = l.written.sum + xb * l.written.length
  rd : ∃ k ≤ st.recordsCorrupted, st.recordsRead = l.read.length + k
  rb : st.recordsCorrupted = 0 → st.bytesRead = l.read.sum
  rl : l.read.sum ≤ st.bytesRead
  rt : st.totalBytesRead = st.bytesRead + xb * st.recordsRead
  cc : crc = false → st.recordsCorrupted = 0
  rf : Refs xb ow st.recordsRefused st.bytesRefused st.totalDataLoss l.refusals

/-- What is held by the clients, as the buffer and as the observer see it. -/
def HoldOk (xb : Nat) (p : Option (Option Range)) (l : Tally) : Prop :=
  match p with
  | some (some r) => l.hold = some (r.size - xb) ∧ xb ≤ r.size ∧ l.reg = true
  | some none => l.hold = none ∧ l.reg = true
  | none => l.hold = none ∧ l.reg = false

def AskOk (xb : Nat) (s : NV) (l : Tally) : Prop :=
  match s.parked with
  | some p => l.asked = some (p.size, p.block) ∧ p.t.range.size = p.size + xb ∧ s.producer = some none
  | none => l.asked = none

def AheadOk (xb : Nat) (c : Option Cons) (l : Tally) : Prop :=
  match c with
  | some (.plain (some r)) => l.ahead = [r.size - xb] ∧ xb ≤ r.size
  | some (.cursor rs) => l.ahead = rs.map (fun r => r.size - xb) ∧ ∀ r ∈ rs, xb ≤ r.size
  | _ => l.ahead = []

structure NInv (xb : Nat) (ow crc : Bool) (s : NV) (l : Tally) : Prop where
  xb4 : 4 ≤ xb
  ixb : s.core.xb = xb
  iow : s.core.overwrite = ow
  icrc : s.crc = crc
  pair : Paired s.core
  pend : Pend s.core
  hold : HoldOk xb s.producer l
  ask : AskOk xb s l
  ahead : AheadOk xb s.consumer l
  cnt : Counts xb ow crc s.core.stats l

variable {crc : Bool} {s : NV} {l : Tally} {K : Crc}

theorem NInv.new (K : Crc) (len : Nat) (crc ow bor : Bool) : NInv (if crc then 8 else 4) ow crc (NV.new K len crc ow bor) Tally.empty := by
  refine ⟨by cases crc <;> decide, rfl, rfl, rfl, rfl, fun _ => rfl, ⟨rfl, rfl⟩, rfl, rfl, rfl, rfl, ?_, ⟨0, Nat.le_refl _, rfl⟩, fun _ => rfl, Nat.le_refl _, ?_,
    fun _ => rfl, nofun, [], 0, Nat.zero_le _, rfl, rfl, List.Sublist.refl _, List.Sublist.refl _, fun _ => rfl⟩
  · cases crc <;> rfl
  · cases crc <;> rfl

/-- Fields the invariant does not look at. -/
theorem NInv.core (h : NInv xb ow crc s l) {c : Core} (hc : Kept s.core c) (hs : c.stats = s.core.stats) : NInv xb ow crc { s with core := c } l := by
  refine ⟨h.xb4, hc.xb.trans h.ixb, hc.ow.trans h.iow, h.icrc, hc.pair h.pair, hc.pend h.pend, h.hold, h.ask, h.ahead, ?_⟩
  show Counts xb ow crc c.stats l
  rw [hs]
  exact h.cnt

/-- A request that was started, with the producer free: the result of looking for space. -/
theorem NInv.takeSpace (h : NInv xb ow crc s l) (hp : s.producer = some none) {t : Temp} {size : Nat} {block : Bool} (ht : t.range.size = size + xb) :
    match s.takeSpace K t size block with
    | (s', .ok _) => NInv xb ow crc s' { l with hold := some size, asked := none }
    | (s', .err e) => NInv xb ow crc s' { l with asked := none, refusals := l.refusals ++ [(size, block, e)] }
    | (s', .blocked) => NInv xb ow crc s' { l with asked := some (size, block) } := by
  have htg : togo s.core < s.core.advanceFuel := by
    unfold togo Core.advanceFuel
    cases s.core.nrs with
    | none => dsimp only; omega
    | some n => dsimp only; split <;> omega
  obtain ⟨ro, bo, rr, br, td, h1, h2, h3, h4, h5⟩ := advanceForWrite_counts (s.hasRead || s.hasWrite) t block s.core.advanceFuel s.core h.pair htg (by rw [h.ixb]; exact h.xb4)
  unfold NV.takeSpace
  generalize hq : s.core.advanceForWrite (s.hasRead || s.hasWrite) t block s.core.advanceFuel = q at h1 h2 h3 h4 h5
  obtain ⟨c, res⟩ := q
  dsimp only at h1 h2 h3 h4 h5
  have hcnt := h.cnt
  have hhold := h.hold
  rw [hp] at hhold
  have hcounts : ∀ l' : Tally, l'.written = l.written → l'.read = l.read → Refs xb ow rr br td l'.refusals → Counts xb ow crc c.stats l' := by
    intro l' e1 e2 e3
    rw [h1]
    exact ⟨e1 ▸ hcnt.wr, e1 ▸ hcnt.wb, e1 ▸ hcnt.wt, e2 ▸ hcnt.rd, e2 ▸ hcnt.rb, e2 ▸ hcnt.rl, hcnt.rt, hcnt.cc, e3⟩
  rcases h5 with ⟨rfl, rfl, rfl, hpr, h5⟩ | ⟨rfl, rfl, rfl, rfl⟩
  · have hpend : Pend c := by
      unfold Pend
      rw [hpr, h1]
      exact h.pend
    rcases h5 with ⟨u, rfl⟩ | rfl | rfl | ⟨rfl, hb, ho⟩
    · dsimp only
      obtain ⟨a1, a2⟩ := applyReservation_counts c t size
      refine ⟨h.xb4, (a1.xb.trans h2).trans h.ixb, (a1.ow.trans h3).trans h.iow, h.icrc, a1.pair h4, a1.pend hpend, ⟨?_, ?_, hhold.2⟩, rfl, h.ahead, ?_⟩
      · show some size = some (t.range.size - xb)
        rw [ht]; congr 1; omega
      · show xb ≤ t.range.size
        omega
      · show Counts xb ow crc (c.applyReservation t size).stats _
        rw [a2]
        exact hcounts _ rfl rfl hcnt.rf
    · dsimp only
      exact ⟨h.xb4, h2.trans h.ixb, h3.trans h.iow, h.icrc, h4, hpend, h.hold, ⟨rfl, ht, hp⟩, h.ahead, hcounts _ rfl rfl hcnt.rf⟩
    · obtain ⟨w1, w2, w3, w4, w5⟩ := withCore_core K s c
      dsimp only
      refine ⟨h.xb4, ?_, ?_, ?_, ?_, ?_, ?_, rfl, ?_, ?_⟩
      · show (s.withCore K c).core.xb = xb; rw [w1]; exact h2.trans h.ixb
      · show (s.withCore K c).core.overwrite = ow; rw [w1]; exact h3.trans h.iow
      · show (s.withCore K c).crc = crc; rw [w2]; exact h.icrc
      · show Paired (s.withCore K c).core; rw [w1]; exact h4
      · show Pend (s.withCore K c).core; rw [w1]; exact hpend
      · show HoldOk xb (s.withCore K c).producer _; rw [w3]; exact h.hold
      · show AheadOk xb (s.withCore K c).consumer _; rw [w5]; exact h.ahead
      · show Counts xb ow crc (s.withCore K c).core.stats _
        rw [w1]
        exact hcounts _ rfl rfl (hcnt.rf.uncounted size block (Or.inl rfl))
    · obtain ⟨w1, w2, w3, w4, w5⟩ := withCore_core K s c
      dsimp only
      refine ⟨h.xb4, ?_, ?_, ?_, ?_, ?_, ?_, rfl, ?_, ?_⟩
      · show (s.withCore K c).core.xb = xb; rw [w1]; exact h2.trans h.ixb
      · show (s.withCore K c).core.overwrite = ow; rw [w1]; exact h3.trans h.iow
      · show (s.withCore K c).crc = crc; rw [w2]; exact h.icrc
      · show Paired (s.withCore K c).core; rw [w1]; exact h4
      · show Pend (s.withCore K c).core; rw [w1]; exact hpend
      · show HoldOk xb (s.withCore K c).producer _; rw [w3]; exact h.hold
      · show AheadOk xb (s.withCore K c).consumer _; rw [w5]; exact h.ahead
      · show Counts xb ow crc (s.withCore K c).core.stats _
        rw [w1]
        exact hcounts _ rfl rfl (hcnt.rf.uncounted size block (Or.inr ⟨rfl, hb, h.iow ▸ ho⟩))
  · obtain ⟨w1, w2, w3, w4, w5⟩ := withCore_core K s c
    dsimp only
    refine ⟨h.xb4, ?_, ?_, ?_, ?_, ?_, ?_, rfl, ?_, ?_⟩
    · show (s.withCore K c).core.xb = xb; rw [w1]; exact h2.trans h.ixb
    · show (s.withCore K c).core.overwrite = ow; rw [w1]; exact h3.trans h.iow
    · show (s.withCore K c).crc = crc; rw [w2]; exact h.icrc
    · show Paired (s.withCore K c).core; rw [w1]; exact h4
    · show Pend (s.withCore K c).core
      rw [w1]
      unfold Pend
      rw [h1]
      intro h
      exact absurd h (Nat.succ_ne_zero _)
    · show HoldOk xb (s.withCore K c).producer _; rw [w3]; exact h.hold
    · show AheadOk xb (s.withCore K c).consumer _; rw [w5]; exact h.ahead
    · show Counts xb ow crc (s.withCore K c).core.stats _
      rw [w1]
      exact hcounts _ rfl rfl (hcnt.rf.lost size block (by omega) (Nat.succ_ne_zero _))

theorem NInv.passReader (h : NInv xb ow crc s l) (hp : s.producer = some none) {t : Temp} {size : Nat} {block : Bool} (ht : t.range.size = size + xb) :
    match s.passReader K t size block with
    | (s', .ok _) => NInv xb ow crc s' { l with hold := some size, asked := none }
    | (s', .err e) => NInv xb ow crc s' { l with asked := none, refusals := l.refusals ++ [(size, block, e)] }
    | (s', .blocked) => NInv xb ow crc s' { l with asked := some (size, block) } := by
  unfold NV.passReader
  by_cases h1 : s.readHit t = true
  · rw [if_pos h1]
    by_cases h2 : s.blockOnRead = true
    · rw [if_pos h2]
      exact ⟨h.xb4, h.ixb, h.iow, h.icrc, h.pair, h.pend, h.hold, ⟨rfl, ht, hp⟩, h.ahead,
        ⟨h.cnt.wr, h.cnt.wb, h.cnt.wt, h.cnt.rd, h.cnt.rb, h.cnt.rl, h.cnt.rt, h.cnt.cc, h.cnt.rf⟩⟩
    · rw [if_neg h2]
      exact ⟨h.xb4, h.ixb, h.iow, h.icrc, h.pair, h.pend, h.hold, rfl, h.ahead,
        ⟨h.cnt.wr, h.cnt.wb, h.cnt.wt, h.cnt.rd, h.cnt.rb, h.cnt.rl, h.cnt.rt, h.cnt.cc, h.cnt.rf.counted size block (Or.inr rfl)⟩⟩
  · rw [if_neg h1]
    exact h.takeSpace hp ht

theorem NInv.reserve (h : NInv xb ow crc s l) (hk : s.parked = none) (size : Nat) (block : Bool) :
    NInv xb ow crc (s.reserve K size block).1 (l.step (.reserve size block) (.slice (s.reserve K size block).2)) := by
  have hask : l.asked = none := by
    have := h.ask
    unfold AskOk at this
    rw [hk] at this
    exact this
  unfold NV.reserve
  have hhold := h.hold
  rcases hp : s.producer with _ | _ | r
  · rw [hp] at hhold
    dsimp only [Tally.step]
    rw [hhold.2]
    exact h
  · rw [hp] at hhold
    dsimp only
    have hask' : ∀ (c : Core) (rs : List (Nat × Bool × Code)), AskOk xb { s with core := c, producer := some none } { l with refusals := rs } := by
      intro c rs
      unfold AskOk
      dsimp only
      rw [hk]
      exact hask
    have href : (l.reg && l.hold.isNone) = true := by rw [hhold.1, hhold.2]; rfl
    have hc := h.cnt
    rcases hsr : s.core.startReserve size with ⟨c, e | actual⟩
    · dsimp only [Tally.step]
      rw [if_pos href]
      unfold Core.startReserve at hsr
      split at hsr
      · cases hsr
        exact ⟨h.xb4, h.ixb, h.iow, h.icrc, h.pair, h.pend, hhold, hask' _ _, h.ahead,
          ⟨hc.wr, hc.wb, hc.wt, hc.rd, hc.rb, hc.rl, hc.rt, hc.cc, hc.rf.counted size block (Or.inl rfl)⟩⟩
      · split at hsr
        · rename_i hpd
          cases hsr
          have htd : s.core.stats.totalDataLoss ≠ 0 := by
            intro h0
            rw [h.pend h0] at hpd
            cases hpd
          exact ⟨h.xb4, h.ixb, h.iow, h.icrc, h.pair, h.pend, hhold, hask' _ _, h.ahead,
            ⟨hc.wr, hc.wb, hc.wt, hc.rd, hc.rb, hc.rl, hc.rt, hc.cc, hc.rf.lost size block ⟨Nat.le_refl _, Nat.le_add_right ..⟩ htd⟩⟩
        · split at hsr
          · cases hsr
            exact ⟨h.xb4, h.ixb, h.iow, h.icrc, h.pair, h.pend, hhold, hask' _ _, h.ahead,
              ⟨hc.wr, hc.wb, hc.wt, hc.rd, hc.rb, hc.rl, hc.rt, hc.cc, hc.rf.invalid size block⟩⟩
          · cases hsr
    · have : c = s.core ∧ actual = size + xb := by
        unfold Core.startReserve at hsr
        split at hsr
        · cases hsr
        · split at hsr
          · cases hsr
          · split at hsr
            · cases hsr
            · cases hsr
              exact ⟨rfl, by rw [h.ixb]⟩
      obtain ⟨rfl, rfl⟩ := this
      dsimp only
      have hpr := NInv.passReader (K := K) (t := s.core.calcNextWriteStart (size + xb)) (size := size) (block := block) h hp (by rw [calc_range])
      generalize hq : s.passReader K (s.core.calcNextWriteStart (size + xb)) size block = q at hpr
      have hq' : ({ core := s.core, crc := s.crc, blockOnRead := s.blockOnRead, hdrCrc := s.hdrCrc, producer := some none, parked := s.parked, consumer := s.consumer } : NV).passReader K
          (s.core.calcNextWriteStart (size + xb)) size block = q := by rw [← hq, ← hp]
      rw [hq']
      obtain ⟨s', res⟩ := q
      cases l
      cases hask
      cases res with
      | ok r => exact hpr
      | err e =>
        dsimp only [Tally.step]
        rw [if_pos href]
        exact hpr
      | blocked => exact hpr
  · rw [hp] at hhold
    dsimp only [Tally.step]
    rw [hhold.1]
    simp only [Option.isNone_some, Bool.and_false, Bool.false_eq_true, if_false]
    exact h

theorem NInv.resume (h : NInv xb ow crc s l) : NInv xb ow crc (s.resume K).1 (l.step .resume (.slice (s.resume K).2)) := by
  have hask := h.ask
  unfold AskOk at hask
  unfold NV.resume
  cases hk : s.parked with
  | none =>
    rw [hk] at hask
    dsimp only at hask
    dsimp only [Tally.step]
    rw [hask]
    simp only [Option.toList_none, List.map_nil, List.append_nil]
    cases l
    cases hask
    exact h
  | some p =>
    rw [hk] at hask
    obtain ⟨ha, ht, hp⟩ := hask
    dsimp only
    have key : ∀ q : NV × Res Range, (match q with
        | (s', .ok _) => NInv xb ow crc s' { l with hold := some p.size, asked := none }
        | (s', .err e) => NInv xb ow crc s' { l with asked := none, refusals := l.refusals ++ [(p.size, p.block, e)] }
        | (s', .blocked) => NInv xb ow crc s' { l with asked := some (p.size, p.block) }) →
        NInv xb ow crc q.1 (l.step .resume (.slice q.2)) := by
      rintro ⟨s', res⟩ hq
      cases l
      cases ha
      cases res with
      | ok r => exact hq
      | err e => exact hq
      | blocked => exact hq
    split
    · dsimp only [Tally.step]
      rw [ha]
      have hc := h.cnt
      exact ⟨h.xb4, h.ixb, h.iow, h.icrc, h.pair, h.pend, h.hold, rfl, h.ahead,
        ⟨hc.wr, hc.wb, hc.wt, hc.rd, hc.rb, hc.rl, hc.rt, hc.cc, hc.rf.uncounted p.size p.block (Or.inl rfl)⟩⟩
    · split
      · exact key _ (h.passReader hp ht)
      · exact key _ (h.takeSpace hp ht)

theorem NInv.commit (h : NInv xb ow crc s l) (hk : s.parked = none) : NInv xb ow crc (s.commit K).1 (l.step .commit (.unit (s.commit K).2)) := by
  unfold NV.commit
  have hhold := h.hold
  rcases hp : s.producer with _ | _ | r
  · exact h
  · exact h
  · rw [hp] at hhold
    obtain ⟨hh, hr, hreg⟩ := hhold
    dsimp only [Tally.step]
    obtain ⟨m1, m2⟩ := maybeReset_calm (({ s.core.advanceCommitted r with readable := true } : Core).writeCrc K s.crc r) s.hasRead
    obtain ⟨w1, w2⟩ := writeCrc_counts K ({ s.core.advanceCommitted r with readable := true } : Core) s.crc r
    have a1 := advanceCommitted_calm s.core r
    have a2 : Kept s.core ({ s.core.advanceCommitted r with readable := true } : Core) := ⟨a1.xb, a1.ow, a1.pair, a1.pend⟩
    have hcalm := a2.trans (w1.trans m1)
    have hst := m2.trans w2
    have hc := h.cnt
    have hask : l.asked = none := by
      have := h.ask
      unfold AskOk at this
      rw [hk] at this
      exact this
    refine ⟨h.xb4, hcalm.xb.trans h.ixb, hcalm.ow.trans h.iow, h.icrc, hcalm.pair h.pair, hcalm.pend h.pend, ⟨rfl, hreg⟩, ?_, h.ahead, ?_⟩
    · show AskOk xb { s with core := _, producer := some none, hdrCrc := _ } _
      unfold AskOk
      rw [hk]
      exact hask
    · show Counts xb ow crc (Core.maybeReset _ _).stats _
      rw [hst, hh]
      refine ⟨?_, ?_, ?_, hc.rd, hc.rb, hc.rl, hc.rt, hc.cc, hc.rf⟩
      · show s.core.stats.recordsWritten + 1 = _
        rw [hc.wr]
        simp
      · show s.core.stats.bytesWritten + (r.size - s.core.xb) = _
        rw [hc.wb, h.ixb]
        simp
      · show s.core.stats.totalBytesWritten + r.size = _
        rw [hc.wt]
        simp only [Option.toList_some, List.sum_append, List.sum_singleton, List.length_append, List.length_singleton, Nat.mul_add, Nat.mul_one]
        omega

theorem NInv.startRead (h : NInv xb ow crc s l) (block : Bool) : NInv xb ow crc (s.startRead K block).1 (l.step (.startRead block) (.record (s.startRead K block).2)) := by
  unfold NV.startRead
  rcases hco : s.consumer with _ | ⟨_ | r⟩ | rs
  · exact h
  · dsimp only
    obtain ⟨i1, i2, i3, i4, ⟨k, b, td, i5, i6, i7, i8⟩, i9⟩ := plainLoop_counts K block s.core.advanceFuel s
    generalize hq : s.plainLoop K block s.core.advanceFuel = q at i1 i2 i3 i4 i5 i9
    obtain ⟨s', res⟩ := q
    dsimp only at i1 i2 i3 i4 i5 i9
    have hc := h.cnt
    have hcnt : ∀ l' : Tally, l'.written = l.written → l'.read = l.read → l'.refusals = l.refusals → Counts xb ow crc s'.core.stats l' := by
      intro l' e1 e2 e3
      rw [i5]
      refine ⟨e1 ▸ hc.wr, e1 ▸ hc.wb, e1 ▸ hc.wt, ?_, ?_, ?_, ?_, ?_, ?_⟩
      · obtain ⟨k', hk', hr⟩ := hc.rd
        refine ⟨k' + k, ?_, ?_⟩
        · show _ ≤ s.core.stats.recordsCorrupted + k
          omega
        · show s.core.stats.recordsRead + k = _
          rw [hr, e2]; omega
      · show s.core.stats.recordsCorrupted + k = 0 → s.core.stats.bytesRead + b = _
        intro h0
        have hb := i7 (by omega)
        rw [e2, hc.rb (by omega), hb]
        rfl
      · show _ ≤ s.core.stats.bytesRead + b
        rw [e2]
        exact Nat.le_trans hc.rl (Nat.le_add_right ..)
      · show s.core.stats.totalBytesRead + (b + s.core.xb * k) = s.core.stats.bytesRead + b + xb * (s.core.stats.recordsRead + k)
        rw [hc.rt, h.ixb, Nat.mul_add]
        omega
      · show crc = false → s.core.stats.recordsCorrupted + k = 0
        intro h0
        rw [hc.cc h0, i8 (h.icrc.trans h0)]
      · rw [e3]
        exact hc.rf.mono i6
    have hb : ∀ l' : Tally, l'.written = l.written → l'.read = l.read → l'.refusals = l.refusals → l'.hold = l.hold → l'.reg = l.reg → l'.asked = l.asked →
        AheadOk xb s'.consumer l' → NInv xb ow crc s' l' := by
      intro l' e1 e2 e3 e4 e5 e6 hA
      refine ⟨h.xb4, i1.xb.trans h.ixb, i1.ow.trans h.iow, i2.trans h.icrc, i1.pair h.pair, i1.pend h.pend, ?_, ?_, hA, hcnt l' e1 e2 e3⟩
      · have := h.hold
        unfold HoldOk at *
        rw [i3, e4, e5]
        exact this
      · have := h.ask
        unfold AskOk at *
        rw [i4, i3, e6]
        exact this
    have hA := h.ahead
    rw [hco] at hA
    rcases i9 with ⟨r, rfl, j1, j2⟩ | ⟨j1, j2⟩
    · refine hb _ rfl rfl rfl rfl rfl rfl ?_
      show AheadOk xb s'.consumer _
      rw [j1]
      refine ⟨?_, by rw [← h.ixb]; exact j2⟩
      show [(readMem s'.core.mem (r.start + s'.core.xb) (r.size - s'.core.xb)).length] = [r.size - xb]
      rw [readMem_length, i1.xb, h.ixb]
    · cases res with
      | ok r => exact absurd rfl (j1 r)
      | err e => exact hb l rfl rfl rfl rfl rfl rfl (by rw [j2, hco]; exact hA)
      | blocked => exact hb l rfl rfl rfl rfl rfl rfl (by rw [j2, hco]; exact hA)
  · exact h
  · exact h

theorem NInv.cursorRead (h : NInv xb ow crc s l) (block : Bool) : NInv xb ow crc (s.cursorRead K block).1 (l.step (.cursorRead block) (.record (s.cursorRead K block).2)) := by
  unfold NV.cursorRead
  rcases hco : s.consumer with _ | ⟨_ | r⟩ | rs
  · exact h
  · exact h
  · exact h
  · dsimp only
    obtain ⟨i1, i2, i3, i4, ⟨k, td, i5, i6, i8⟩, i9⟩ := cursorLoop_counts K rs block s.core.advanceFuel s
    generalize hq : s.cursorLoop K rs block s.core.advanceFuel = q at i1 i2 i3 i4 i5 i9
    obtain ⟨s', res⟩ := q
    dsimp only at i1 i2 i3 i4 i5 i9
    have hc := h.cnt
    have hcnt : ∀ l' : Tally, l'.written = l.written → l'.read = l.read → l'.refusals = l.refusals → Counts xb ow crc s'.core.stats l' := by
      intro l' e1 e2 e3
      rw [i5]
      refine ⟨e1 ▸ hc.wr, e1 ▸ hc.wb, e1 ▸ hc.wt, ?_, ?_, e2 ▸ hc.rl, hc.rt, ?_, ?_⟩
      · obtain ⟨k', hk', hr⟩ := hc.rd
        refine ⟨k', ?_, e2 ▸ hr⟩
        show _ ≤ s.core.stats.recordsCorrupted + k
        omega
      · show s.core.stats.recordsCorrupted + k = 0 → s.core.stats.bytesRead = _
        intro h0
        rw [e2, hc.rb (by omega)]
      · show crc = false → s.core.stats.recordsCorrupted + k = 0
        intro h0
        rw [hc.cc h0, i8 (h.icrc.trans h0)]
      · rw [e3]
        exact hc.rf.mono i6
    have hb : ∀ l' : Tally, l'.written = l.written → l'.read = l.read → l'.refusals = l.refusals → l'.hold = l.hold → l'.reg = l.reg → l'.asked = l.asked →
        AheadOk xb s'.consumer l' → NInv xb ow crc s' l' := by
      intro l' e1 e2 e3 e4 e5 e6 hA
      refine ⟨h.xb4, i1.xb.trans h.ixb, i1.ow.trans h.iow, i2.trans h.icrc, i1.pair h.pair, i1.pend h.pend, ?_, ?_, hA, hcnt l' e1 e2 e3⟩
      · have := h.hold
        unfold HoldOk at *
        rw [i3, e4, e5]
        exact this
      · have := h.ask
        unfold AskOk at *
        rw [i4, i3, e6]
        exact this
    have hA := h.ahead
    rw [hco] at hA
    rcases i9 with ⟨r, rfl, j1, j2⟩ | ⟨j1, j2⟩
    · refine hb _ rfl rfl rfl rfl rfl rfl ?_
      show AheadOk xb s'.consumer _
      rw [j1]
      refine ⟨?_, ?_⟩
      · show l.ahead ++ [(readMem s'.core.mem (r.start + s'.core.xb) (r.size - s'.core.xb)).length] = _
        rw [readMem_length, i1.xb, h.ixb, hA.1, List.map_append]
        rfl
      · intro x hx
        rcases List.mem_append.1 hx with hx | hx
        · exact hA.2 x hx
        · obtain rfl := List.mem_singleton.1 hx
          rw [← h.ixb]
          exact j2
    · cases res with
      | ok r => exact absurd rfl (j1 r)
      | err e => exact hb l rfl rfl rfl rfl rfl rfl (by rw [j2, hco]; exact hA)
      | blocked => exact hb l rfl rfl rfl rfl rfl rfl (by rw [j2, hco]; exact hA)

/-- A record is finished. -/
theorem NInv.finished (h : NInv xb ow crc s l) {r : Range} {busy : Bool} {co : Option Cons} (hr : xb ≤ r.size) (hh : l.ahead.head? = some (r.size - xb))
    (hA : AheadOk xb co { l with read := l.read ++ l.ahead.head?.toList, ahead := l.ahead.tail }) :
    NInv xb ow crc (({ s with core := (s.core.finishRead busy r).1, consumer := co } : NV).syncHdr K) { l with read := l.read ++ l.ahead.head?.toList, ahead := l.ahead.tail } := by
  obtain ⟨f1, f2⟩ := finishRead_counts s.core busy r
  have hc := h.cnt
  refine ⟨h.xb4, f1.xb.trans h.ixb, f1.ow.trans h.iow, h.icrc, f1.pair h.pair, f1.pend h.pend, h.hold, h.ask, hA, ?_⟩
  show Counts xb ow crc (s.core.finishRead busy r).1.stats _
  rw [f2, hh, h.ixb]
  refine ⟨hc.wr, hc.wb, hc.wt, ?_, ?_, ?_, ?_, hc.cc, hc.rf⟩
  · obtain ⟨k, hk, e⟩ := hc.rd
    refine ⟨k, hk, ?_⟩
    show s.core.stats.recordsRead + 1 = (l.read ++ [r.size - xb]).length + k
    rw [e, List.length_append, List.length_singleton]
    omega
  · intro h0
    show s.core.stats.bytesRead + (r.size - xb) = (l.read ++ [r.size - xb]).sum
    rw [hc.rb h0, List.sum_append, List.sum_singleton]
  · show (l.read ++ [r.size - xb]).sum ≤ s.core.stats.bytesRead + (r.size - xb)
    have := hc.rl
    rw [List.sum_append, List.sum_singleton]
    omega
  · show s.core.stats.totalBytesRead + r.size = s.core.stats.bytesRead + (r.size - xb) + xb * (s.core.stats.recordsRead + 1)
    rw [hc.rt, Nat.mul_add, Nat.mul_one]
    omega

theorem NInv.step (h : NInv xb ow crc s l) (op : NOp) : NInv xb ow crc (s.step K op).1 (l.step op (s.step K op).2) := by
  unfold NV.step
  by_cases hb : (s.parked.isSome && op.usesProducer) = true
  · rw [if_pos hb]
    cases op <;> first | exact h | simp [NOp.usesProducer] at hb
  rw [if_neg hb]
  have hpk : op.usesProducer = true → s.parked = none := by
    intro hu
    cases hk : s.parked with
    | none => rfl
    | some p => rw [hk, hu] at hb; exact absurd rfl hb
  have hc := h.cnt
  cases op with
  | registerProducer =>
    dsimp only [NV.step']
    cases hp : s.producer with
    | some x => exact h
    | none =>
      have hhold := h.hold
      rw [hp] at hhold
      have hk : s.parked = none := by
        have := h.ask
        unfold AskOk at this
        cases hk : s.parked with
        | none => rfl
        | some p => rw [hk, hp] at this; exact absurd this.2.2 nofun
      refine ⟨h.xb4, h.ixb, h.iow, h.icrc, h.pair, h.pend, ⟨hhold.1, rfl⟩, ?_, h.ahead, ⟨hc.wr, hc.wb, hc.wt, hc.rd, hc.rb, hc.rl, hc.rt, hc.cc, hc.rf⟩⟩
      have := h.ask
      unfold AskOk at this ⊢
      rw [hk] at this
      dsimp only
      rw [hk]
      exact this
  | dropProducer =>
    have hk := hpk rfl
    have hask : l.asked = none := by
      have := h.ask
      unfold AskOk at this
      rw [hk] at this
      exact this
    refine ⟨h.xb4, h.ixb, h.iow, h.icrc, h.pair, h.pend, ⟨rfl, rfl⟩, ?_, h.ahead, ⟨hc.wr, hc.wb, hc.wt, hc.rd, hc.rb, hc.rl, hc.rt, hc.cc, hc.rf⟩⟩
    show AskOk xb { s with producer := none } _
    unfold AskOk
    dsimp only
    rw [hk]
    exact hask
  | reserve size block => exact h.reserve (hpk rfl) size block
  | resume => exact h.resume
  | write off bytes =>
    dsimp only [NV.step', NV.write]
    rcases hp : s.producer with _ | _ | r
    · exact h
    · exact h
    · dsimp only
      split
      · have := h.core (c := { s.core with mem := writeMem s.core.mem (r.start + s.core.xb + off) bytes }) ⟨rfl, rfl, id, id⟩ rfl
        rw [hp] at this
        exact this
      · exact h
  | commit => exact h.commit (hpk rfl)
  | registerConsumer =>
    dsimp only [NV.step']
    cases hco : s.consumer with
    | some x => exact h
    | none =>
      have hA := h.ahead
      rw [hco] at hA
      exact ⟨h.xb4, h.ixb, h.iow, h.icrc, h.pair, h.pend, h.hold, h.ask, hA, hc⟩
  | registerCursor =>
    dsimp only [NV.step']
    cases hco : s.consumer with
    | some x => exact h
    | none =>
      have hA := h.ahead
      rw [hco] at hA
      dsimp only
      split
      · exact h
      · exact ⟨h.xb4, h.ixb, h.iow, h.icrc, h.pair, h.pend, h.hold, h.ask, ⟨hA, nofun⟩, hc⟩
  | dropConsumer =>
    exact ⟨h.xb4, h.ixb, h.iow, h.icrc, h.pair, h.pend, h.hold, h.ask, rfl, ⟨hc.wr, hc.wb, hc.wt, hc.rd, hc.rb, hc.rl, hc.rt, hc.cc, hc.rf⟩⟩
  | startRead b => exact h.startRead b
  | cursorRead b => exact h.cursorRead b
  | finishRead =>
    dsimp only [NV.step', NV.finishRead]
    have hA := h.ahead
    rcases hco : s.consumer with _ | ⟨_ | r⟩ | rs
    · exact h
    · exact h
    · rw [hco] at hA
      refine h.finished hA.2 (by rw [hA.1]; rfl) ?_
      show l.ahead.tail = []
      rw [hA.1]
      rfl
    · exact h
  | ack =>
    dsimp only [NV.step', NV.ack]
    have hA := h.ahead
    rcases hco : s.consumer with _ | ⟨_ | r⟩ | (_ | ⟨r, rs⟩)
    · exact h
    · exact h
    · exact h
    · exact h
    · rw [hco] at hA
      refine h.finished (hA.2 r (List.mem_cons_self ..)) (by rw [hA.1]; rfl) ⟨?_, fun x hx => hA.2 x (List.mem_cons_of_mem _ hx)⟩
      show l.ahead.tail = _
      rw [hA.1]
      rfl
  | waitForDrain =>
    dsimp only [NV.step', Core.waitForDrain]
    split
    · exact h.core ⟨rfl, rfl, id, id⟩ rfl
    · exact h
  | lock => exact h.core ⟨rfl, rfl, id, id⟩ rfl
  | unlock => exact h.core ⟨rfl, rfl, id, id⟩ rfl
  | shutdown =>
    dsimp only [NV.step', Core.doShutdown]
    split
    · exact h
    · exact h.core ⟨rfl, rfl, id, id⟩ rfl
  | alter a b => exact h.core ⟨rfl, rfl, id, id⟩ rfl
  | restart =>
    dsimp only [NV.step', NV.reopen]
    by_cases hd : K.hdr s.core.nws s.core.cws s.core.lweb s.core.nrs ≠ s.hdrCrc
    · rw [if_pos hd]
      exact h
    · rw [if_neg hd]
      exact ⟨h.xb4, h.ixb, h.iow, h.icrc, h.pair, fun _ => rfl, ⟨rfl, rfl⟩, rfl, rfl, ⟨hc.wr, hc.wb, hc.wt, hc.rd, hc.rb, hc.rl, hc.rt, hc.cc, hc.rf⟩⟩

theorem NInv.run (K : Crc) : ∀ (ops : List NOp) {s : NV} {l : Tally}, NInv xb ow crc s l → NInv xb ow crc (s.run K ops).1 (l.run ops (s.run K ops).2)
  | [], _, _, h => h
  | op :: ops, _, _, h => NInv.run K ops (h.step op)

/-! ### The volatile ring buffer -/

def Grant.resv (g : Grant) : Resv := ⟨g.owner, ⟨g.slice.start - 4, g.slice.size + 4⟩, g.committed⟩

/-- The counters of a volatile ring buffer against its history and the refusals seen. -/
structure VInv (v : Vol) (t : Trace) (refs : List (Nat × Code)) : Prop where
  grants : ∃ A B, t.grants = A ++ B ∧ (∀ g ∈ A, g.committed = true) ∧ (∀ g, B.head? = some g → g.committed = false) ∧ v.resv = B.map Grant.resv ∧
    v.core.stats.recordsWritten = A.length ∧ v.core.stats.bytesWritten = (A.map (·.slice.size)).sum ∧
    v.core.stats.totalBytesWritten = (A.map (·.slice.size)).sum + 4 * A.length
  reading : match v.consumer with
    | some (some r) => ∃ x, t.reading = some x ∧ x.2.length = r.size - 4 ∧ 4 ≤ r.size
    | _ => t.reading = none
  rd : v.core.stats.recordsRead = t.delivered.length
  rb : v.core.stats.bytesRead = (t.delivered.map (·.length)).sum
  rt : v.core.stats.totalBytesRead = v.core.stats.bytesRead + 4 * v.core.stats.recordsRead
  rr : v.core.stats.recordsRefused = refs.length
  br : v.core.stats.bytesRefused = ((refs.filter (·.2 ≠ .invalidArgument)).map (·.1)).sum
  cor : v.core.stats.recordsCorrupted = 0
  dl : v.core.stats.totalDataLoss = 0

theorem VInv.new (len : Nat) (mem : Mem) : VInv (Vol.new len mem) Trace.empty [] :=
  ⟨⟨[], [], rfl, nofun, nofun, rfl, rfl, rfl, rfl⟩, rfl, rfl, rfl, rfl, rfl, rfl, rfl, rfl⟩

theorem VInv.holds {v : Vol} {t : Trace} {refs : List (Nat × Code)} (h : VInv v t refs) (p : Nat) : v.holds p = t.grants.any (·.openBy p) := by
  obtain ⟨A, B, h1, h2, h3, h4, _⟩ := h.grants
  have hA : A.any (·.openBy p) = false := by
    rw [List.any_eq_false]
    intro g hg
    unfold Grant.openBy
    rw [h2 g hg]
    simp
  rw [Vol.holds, h4, h1, List.any_append, hA, Bool.false_or, List.any_map]
  rfl

/-- Popping what is committed at the front. -/
theorem popCommitted_counts : ∀ (G : List Grant) (c : Core), c.xb = 4 → ∃ A B, G = A ++ B ∧ (∀ g ∈ A, g.committed = true) ∧
    (∀ g, B.head? = some g → g.committed = false) ∧ (popCommitted c (G.map Grant.resv)).2 = B.map Grant.resv ∧
    (popCommitted c (G.map Grant.resv)).1.xb = 4 ∧
    (popCommitted c (G.map Grant.resv)).1.stats = { c.stats with
      recordsWritten := c.stats.recordsWritten + A.length
      bytesWritten := c.stats.bytesWritten + (A.map (·.slice.size)).sum
      totalBytesWritten := c.stats.totalBytesWritten + ((A.map (·.slice.size)).sum + 4 * A.length) }
  | [], c, hx => ⟨[], [], rfl, nofun, nofun, rfl, hx, rfl⟩
  | g :: G, c, hx => by
    by_cases hg : g.committed = true
    · obtain ⟨A, B, h1, h2, h3, h4, h5, h6⟩ := popCommitted_counts G (c.advanceCommitted g.resv.range) hx
      have e : popCommitted c ((g :: G).map Grant.resv) = popCommitted (c.advanceCommitted g.resv.range) (G.map Grant.resv) := by
        rw [List.map_cons, popCommitted]
        exact if_pos hg
      rw [e]
      refine ⟨g :: A, B, by rw [h1]; rfl, ?_, h3, h4, h5, ?_⟩
      · intro x hm
        rcases List.mem_cons.1 hm with rfl | hm
        · exact hg
        · exact h2 x hm
      · rw [h6]
        show ({ c.stats with
          totalBytesWritten := c.stats.totalBytesWritten + (g.slice.size + 4) + ((A.map (·.slice.size)).sum + 4 * A.length)
          recordsWritten := c.stats.recordsWritten + 1 + A.length
          bytesWritten := c.stats.bytesWritten + (g.slice.size + 4 - c.xb) + (A.map (·.slice.size)).sum } : Stats) = _
        rw [hx, Stats.mk.injEq]
        simp only [List.map_cons, List.sum_cons, List.length_cons, and_true]
        omega
    · have e : popCommitted c ((g :: G).map Grant.resv) = (c, (g :: G).map Grant.resv) := by
        rw [List.map_cons, popCommitted]
        exact if_neg hg
      rw [e]
      refine ⟨[], g :: G, rfl, nofun, ?_, rfl, hx, rfl⟩
      rintro x hm
      cases hm
      simpa using hg

/-- The refusals of one call. -/
def callRefusals (t : Trace) (op : Op) (o : Out) : List (Nat × Code) :=
  match op, o with
  | .reserve p size, .slice (.err e) => if t.grants.any (·.openBy p) then [] else [(size, e)]
  | _, _ => []

theorem volRefusals_cons (t : Trace) (op : Op) (ops : List Op) (o : Out) (os : List Out) :
    volRefusals t (op :: ops) (o :: os) = callRefusals t op o ++ volRefusals (t.step op o) ops os := rfl

/-- The answers of the specification to a request, and how it counts them. -/
theorem fifo_reserve_counts (f : Fifo) (p size : Nat) :
    (∃ r, (f.reserve p size).2 = .ok r ∧ (f.slots.any fun s => s.owner == p && !s.committed) = false ∧ r.size = size ∧ 4 ≤ r.start ∧
      (f.reserve p size).1.refusedRecords = f.refusedRecords ∧ (f.reserve p size).1.refusedBytes = f.refusedBytes) ∨
    (∃ e, (f.reserve p size).2 = .err e ∧ (e = .failedPrecondition ∨ e = .resourceExhausted ∨ e = .invalidArgument) ∧
      ((f.slots.any fun s => s.owner == p && !s.committed) = true ∧ (f.reserve p size).1 = f ∨
        (f.slots.any fun s => s.owner == p && !s.committed) = false ∧ (f.reserve p size).1 = f.refuse (if e = .invalidArgument then 0 else size))) := by
  unfold Fifo.reserve
  dsimp only
  by_cases h1 : (f.slots.any fun s => s.owner == p && !s.committed) = true
  · rw [if_pos h1]
    exact Or.inr ⟨_, rfl, Or.inr (Or.inr rfl), Or.inl ⟨h1, rfl⟩⟩
  rw [if_neg h1]
  have h1 : (f.slots.any fun s => s.owner == p && !s.committed) = false := by simpa using h1
  by_cases h2 : f.locks > 0
  · rw [if_pos h2]
    exact Or.inr ⟨_, rfl, Or.inl rfl, Or.inr ⟨h1, rfl⟩⟩
  rw [if_neg h2]
  by_cases h3 : size = 0 ∨ size + headerBytes > f.len
  · rw [if_pos h3]
    exact Or.inr ⟨_, rfl, Or.inr (Or.inr rfl), Or.inr ⟨h1, rfl⟩⟩
  rw [if_neg h3]
  by_cases h4 : (f.slots.any fun s => f.inTheWay (size + headerBytes) s && f.pinned s) = true
  · rw [if_pos h4]
    exact Or.inr ⟨_, rfl, Or.inr (Or.inl rfl), Or.inr ⟨h1, rfl⟩⟩
  rw [if_neg h4]
  exact Or.inl ⟨_, rfl, h1, rfl, Nat.le_add_left .., rfl, rfl⟩

theorem CoreInv.paired {c : Core} {U O : List Range} (h : CoreInv c U O) : Paired c := by
  unfold Paired
  rw [h.nrs, h.cws]
  cases U with
  | nil => rfl
  | cons u U => simp [List.getLast?_eq_some_getLast]

/-- What a request changes. -/
theorem reserve_frame (v : Vol) (p size : Nat) (hp : Paired v.core) (hx : v.core.xb = 4) :
    ∃ ro bo rr br td, (v.reserve p size).1.core.stats =
        { v.core.stats with recordsOverwritten := ro, bytesOverwritten := bo, recordsRefused := rr, bytesRefused := br, totalDataLoss := td } ∧
      (v.reserve p size).1.consumer = v.consumer ∧
      ((∃ r, (v.reserve p size).2 = .ok r ∧ (v.reserve p size).1.resv = v.resv ++ [⟨p, ⟨r.start - 4, r.size + 4⟩, false⟩]) ∨
        (∀ r, (v.reserve p size).2 ≠ .ok r) ∧ (v.reserve p size).1.resv = v.resv) ∧
      (td = v.core.stats.totalDataLoss ∨ (v.reserve p size).2 = .err .unavailable) := by
  unfold Vol.reserve
  by_cases h1 : v.holds p = true
  · rw [if_pos h1]
    exact ⟨_, _, _, _, _, rfl, rfl, Or.inr ⟨nofun, rfl⟩, Or.inl rfl⟩
  rw [if_neg h1]
  rcases hsr : v.core.startReserve size with ⟨c, e | actual⟩
  · dsimp only
    unfold Core.startReserve at hsr
    split at hsr
    · cases hsr
      exact ⟨v.core.stats.recordsOverwritten, v.core.stats.bytesOverwritten, _, _, v.core.stats.totalDataLoss, rfl, rfl, Or.inr ⟨nofun, rfl⟩, Or.inl rfl⟩
    · split at hsr
      · cases hsr
        exact ⟨v.core.stats.recordsOverwritten, v.core.stats.bytesOverwritten, _, _, v.core.stats.totalDataLoss, rfl, rfl, Or.inr ⟨nofun, rfl⟩, Or.inl rfl⟩
      · split at hsr
        · cases hsr
          exact ⟨v.core.stats.recordsOverwritten, v.core.stats.bytesOverwritten, _, v.core.stats.bytesRefused, v.core.stats.totalDataLoss, rfl, rfl, Or.inr ⟨nofun, rfl⟩, Or.inl rfl⟩
        · cases hsr
  · have : c = v.core ∧ actual = size + 4 := by
      unfold Core.startReserve at hsr
      split at hsr
      · cases hsr
      · split at hsr
        · cases hsr
        · split at hsr
          · cases hsr
          · cases hsr
            exact ⟨rfl, by rw [hx]⟩
    obtain ⟨rfl, rfl⟩ := this
    dsimp only
    split
    · exact ⟨v.core.stats.recordsOverwritten, v.core.stats.bytesOverwritten, _, _, v.core.stats.totalDataLoss, rfl, rfl, Or.inr ⟨nofun, rfl⟩, Or.inl rfl⟩
    split
    · exact ⟨v.core.stats.recordsOverwritten, v.core.stats.bytesOverwritten, _, _, v.core.stats.totalDataLoss, rfl, rfl, Or.inr ⟨nofun, rfl⟩, Or.inl rfl⟩
    have htg : togo v.core < v.core.advanceFuel := by
      unfold togo Core.advanceFuel
      cases v.core.nrs with
      | none => dsimp only; omega
      | some n => dsimp only; split <;> omega
    have hr := calc_range v.core (size + 4)
    generalize v.core.calcNextWriteStart (size + 4) = t at hr ⊢
    obtain ⟨ro, bo, rr, br, td, h2, h3, h4, h5, h6⟩ := advanceForWrite_counts (v.hasRead || v.hasWrite) t true v.core.advanceFuel v.core hp htg (by omega)
    generalize hq : v.core.advanceForWrite (v.hasRead || v.hasWrite) t true v.core.advanceFuel = q at h2 h3 h4 h5 h6
    obtain ⟨c, res⟩ := q
    dsimp only at h2 h3 h4 h5 h6
    have htd : td = v.core.stats.totalDataLoss ∨ res = .err .unavailable := by
      rcases h6 with h6 | h6
      · exact Or.inl h6.2.2.1
      · exact Or.inr h6.2.2.2
    cases res with
    | ok u =>
      dsimp only
      refine ⟨ro, bo, rr, br, td, (applyReservation_counts c t size).2.trans h2, rfl, Or.inl ⟨_, rfl, ?_⟩, ?_⟩
      · rw [h3, hx, hr]
        rfl
      · exact htd.imp_right nofun
    | err e =>
      dsimp only
      refine ⟨ro, bo, rr, br, td, h2, rfl, Or.inr ⟨nofun, rfl⟩, ?_⟩
      exact htd.imp_right fun h => by cases h; rfl
    | blocked =>
      dsimp only
      exact ⟨ro, bo, rr, br, td, h2, rfl, Or.inr ⟨nofun, rfl⟩, htd.imp_right nofun⟩

theorem VInv.step {v : Vol} {t : Trace} {f : Fifo} {U O : List Slot} {refs : List (Nat × Code)} (hs : Sim v f U O) (h : VInv v t refs) (op : Op) :
    VInv (v.step op).1 (t.step op (v.step op).2) (refs ++ callRefusals t op (v.step op).2) := by
  have nil : ∀ {v' : Vol} {t' : Trace}, VInv v' t' refs → VInv v' t' (refs ++ []) := fun h => by rw [List.append_nil]; exact h
  cases op with
  | reserve p size =>
    obtain ⟨U', O', hs', hout⟩ := hs.reserve p size
    have hrr := hs'.refR
    have hrb := hs'.refB
    obtain ⟨ro, bo, rr, br, td, h1, h2, h3, h4⟩ := reserve_frame v p size hs.inv.paired hs.xb
    show VInv (v.reserve p size).1 (t.step (.reserve p size) (.slice (v.reserve p size).2)) (refs ++ callRefusals t (.reserve p size) (.slice (v.reserve p size).2))
    have hh : (f.slots.any fun s => s.owner == p && !s.committed) = t.grants.any (·.openBy p) := by rw [← hs.holds, h.holds]
    have hfc := fifo_reserve_counts f p size
    rw [hh, ← hout] at hfc
    rw [h1] at hrr hrb
    generalize hq : v.reserve p size = q at h1 h2 h3 h4 hout hfc ⊢
    obtain ⟨v', res⟩ := q
    dsimp only at h1 h2 h3 h4 hout hfc hrr hrb ⊢
    have htd : td = 0 := by
      rcases h4 with h4 | h4
      · rw [h4, h.dl]
      · rcases hfc with ⟨r, e, _⟩ | ⟨e, e', hc, _⟩
        · rw [e] at h4; cases h4
        · rw [e'] at h4; cases h4; rcases hc with hc | hc | hc <;> cases hc
    subst htd
    obtain ⟨A, B, g1, g2, g3, g4, g5, g6, g7⟩ := h.grants
    have hread : ∀ t' : Trace, t'.reading = t.reading → match v'.consumer with
        | some (some r) => ∃ x, t'.reading = some x ∧ x.2.length = r.size - 4 ∧ 4 ≤ r.size
        | _ => t'.reading = none := by
      intro t' ht
      rw [h2, ht]
      exact h.reading
    rcases hfc with ⟨r, rfl, k1, k2, k3, k4, k5⟩ | ⟨e, rfl, hc, hf⟩
    · rcases h3 with ⟨r', er, h3⟩ | ⟨h3, _⟩
      · cases er
        refine ⟨⟨A, B ++ [⟨p, r, List.replicate size none, false⟩], ?_, g2, ?_, ?_, ?_, ?_, ?_⟩, hread _ rfl, ?_, ?_, ?_, ?_, ?_, ?_, ?_⟩
        · show t.grants ++ _ = _
          rw [g1, List.append_assoc]
        · intro g hg
          cases B with
          | nil => cases hg; rfl
          | cons b B => exact g3 g hg
        · rw [h3, g4, List.map_append]
          rfl
        all_goals rw [h1]
        · exact g5
        · exact g6
        · exact g7
        · exact h.rd
        · exact h.rb
        · exact h.rt
        · show rr = _
          rw [hrr, k4, ← hs.refR, h.rr]
          simp [callRefusals]
        · show br = _
          rw [hrb, k5, ← hs.refB, h.br]
          simp [callRefusals]
        · exact h.cor
      · exact absurd rfl (h3 r)
    · rcases h3 with ⟨r', er, _⟩ | ⟨_, h3⟩
      · cases er
      · refine ⟨⟨A, B, g1, g2, g3, h3.trans g4, ?_, ?_, ?_⟩, hread _ rfl, ?_, ?_, ?_, ?_, ?_, ?_, ?_⟩
        all_goals rw [h1]
        · exact g5
        · exact g6
        · exact g7
        · exact h.rd
        · exact h.rb
        · exact h.rt
        · show rr = _
          dsimp only [callRefusals]
          rcases hf with ⟨hf1, hf2⟩ | ⟨hf1, hf2⟩
          · rw [hrr, hf2, if_pos hf1, List.append_nil, ← hs.refR, h.rr]
          · rw [hrr, hf2, hf1]
            show f.refusedRecords + 1 = _
            rw [← hs.refR, h.rr]
            simp
        · show br = _
          dsimp only [callRefusals]
          rcases hf with ⟨hf1, hf2⟩ | ⟨hf1, hf2⟩
          · rw [hrb, hf2, if_pos hf1, List.append_nil, ← hs.refB, h.br]
          · rw [hrb, hf2, hf1]
            show f.refusedBytes + (if e = .invalidArgument then 0 else size) = _
            rw [← hs.refB, h.br]
            simp only [Bool.false_eq_true, if_false, List.filter_append, List.map_append, List.sum_append]
            congr 1
            rcases hc with rfl | rfl | rfl <;> simp
        · exact h.cor
  | write p off bytes =>
    refine nil ?_
    obtain ⟨A, B, g1, g2, g3, g4, g5, g6, g7⟩ := h.grants
    dsimp only [Vol.step, Vol.write]
    cases hf : v.resv.find? fun r => r.owner == p && !r.committed with
    | none => exact h
    | some r =>
      dsimp only
      split
      · have hA : A.map (fun g => if g.openBy p then { g with data := overlay g.data off bytes } else g) = A := by
          refine (List.map_congr_left (g := id) fun g hg => ?_).trans (List.map_id A)
          unfold Grant.openBy
          rw [g2 g hg]
          simp
        refine ⟨⟨A, B.map fun g => if g.openBy p then { g with data := overlay g.data off bytes } else g, ?_, g2, ?_, ?_, g5, g6, g7⟩, h.reading, h.rd, h.rb, h.rt, h.rr, h.br, h.cor, h.dl⟩
        · show t.grants.map _ = _
          rw [g1, List.map_append, hA]
        · intro g hg
          rw [List.head?_map] at hg
          cases hB : B.head? with
          | none => rw [hB] at hg; cases hg
          | some b =>
            rw [hB] at hg
            cases hg
            dsimp only
            split
            · exact g3 b hB
            · exact g3 b hB
        · show v.resv = _
          rw [g4, List.map_map]
          refine List.map_congr_left fun g _ => ?_
          dsimp only [Function.comp]
          split <;> rfl
      · exact h
  | commit p =>
    refine nil ?_
    obtain ⟨A, B, g1, g2, g3, g4, g5, g6, g7⟩ := h.grants
    dsimp only [Vol.step, Vol.commit]
    by_cases hh : (!v.holds p) = true
    · rw [if_pos hh]
      exact h
    · rw [if_neg hh]
      have hm : markCommitted p v.resv = (B.map fun g => if g.openBy p then { g with committed := true } else g).map Grant.resv := by
        rw [g4, markCommitted, List.map_map, List.map_map]
        refine List.map_congr_left fun g _ => ?_
        show (if (g.owner == p && !g.committed) = true then _ else _) = _
        dsimp only [Function.comp, Grant.openBy]
        by_cases hg : (g.owner == p && !g.committed) = true
        · rw [if_pos hg]; exact (congrArg Grant.resv (if_pos (e := g) (t := { g with committed := true }) hg)).symm
        · rw [if_neg hg]; exact congrArg Grant.resv (if_neg hg).symm
      have hA : A.map (fun g => if g.openBy p then { g with committed := true } else g) = A := by
        refine (List.map_congr_left (g := id) fun g hg => ?_).trans (List.map_id A)
        unfold Grant.openBy
        rw [g2 g hg]
        simp
      obtain ⟨A', B', k1, k2, k3, k4, k5, k6⟩ := popCommitted_counts (B.map fun g => if g.openBy p then { g with committed := true } else g) { v.core with readable := true } hs.xb
      rw [hm]
      refine ⟨⟨A ++ A', B', ?_, ?_, k3, k4, ?_, ?_, ?_⟩, h.reading, ?_, ?_, ?_, ?_, ?_, ?_, ?_⟩
      · show t.grants.map _ = _
        rw [g1, List.map_append, hA, k1, List.append_assoc]
      · intro g hg
        rcases List.mem_append.1 hg with hg | hg
        · exact g2 g hg
        · exact k2 g hg
      all_goals rw [k6]
      · show v.core.stats.recordsWritten + _ = _
        rw [g5, List.length_append]
      · show v.core.stats.bytesWritten + _ = _
        rw [g6, List.map_append, List.sum_append]
      · show v.core.stats.totalBytesWritten + _ = _
        rw [g7, List.map_append, List.sum_append, List.length_append, Nat.mul_add]
        omega
      · exact h.rd
      · exact h.rb
      · exact h.rt
      · exact h.rr
      · exact h.br
      · exact h.cor
      · exact h.dl
  | registerConsumer =>
    refine nil ?_
    dsimp only [Vol.step, Vol.registerConsumer]
    cases hco : v.consumer with
    | some x => exact h
    | none =>
      have hr := h.reading
      rw [hco] at hr
      exact ⟨h.grants, hr, h.rd, h.rb, h.rt, h.rr, h.br, h.cor, h.dl⟩
  | dropConsumer => exact nil ⟨h.grants, rfl, h.rd, h.rb, h.rt, h.rr, h.br, h.cor, h.dl⟩
  | startRead block =>
    refine nil ?_
    dsimp only [Vol.step, Vol.startRead]
    have hr := h.reading
    rcases hco : v.consumer with _ | _ | r
    · exact h
    · rw [hco] at hr
      dsimp only
      obtain ⟨c1, ⟨td, c2, c3⟩, c4⟩ := startRead_counts v.core (v.hasRead || v.hasWrite) block none
      have htd : td = 0 := by
        have e : (v.core.startRead (v.hasRead || v.hasWrite) block none).1.stats.totalDataLoss = v.core.stats.totalDataLoss := by
          unfold Core.startRead
          rw [if_neg (by simp), if_neg (by rw [hs.inv.pend]; simp)]
          cases hU : U with
          | nil =>
            have hn : v.core.nrs = none := by rw [hs.inv.nrs, hU]; rfl
            simp only [hn]
            cases block
            · rfl
            · cases v.core.shutdown <;> rfl
          | cons u U' =>
            have hn : v.core.nrs = some u.range.start := by rw [hs.inv.nrs, hU]; rfl
            simp only [hn, hs.inv.loadSize (r := u.range) (by rw [hU]; simp)]
        rw [c2, h.dl] at e
        exact e
      subst htd
      have e : (({ core := v.core, consumer := some none, resv := v.resv } : Vol)) = v := by rw [← hco]
      generalize hq : v.core.startRead (v.hasRead || v.hasWrite) block none = q at c1 c2 c4
      obtain ⟨c, res⟩ := q
      dsimp only at c1 c2 c4
      have hcnt : ∀ (v' : Vol) (t' : Trace), v'.core = c → v'.resv = v.resv → t'.grants = t.grants → t'.delivered = t.delivered →
          (match v'.consumer with
            | some (some r) => ∃ x, t'.reading = some x ∧ x.2.length = r.size - 4 ∧ 4 ≤ r.size
            | _ => t'.reading = none) → VInv v' t' refs := by
        intro v' t' e1 e2 e3 e4 e5
        refine ⟨?_, e5, ?_, ?_, ?_, ?_, ?_, ?_, ?_⟩
        all_goals rw [e1, c2]
        · rw [e2, e3]; exact h.grants
        · rw [e4]; exact h.rd
        · rw [e4]; exact h.rb
        · exact h.rt
        · exact h.rr
        · exact h.br
        · exact h.cor
      cases res with
      | ok r =>
        refine hcnt _ _ rfl rfl rfl rfl ?_
        refine ⟨_, rfl, ?_, ?_⟩
        · dsimp only
          rw [readMem_length, c1.xb, hs.xb]
        · have := c4 r rfl
          rw [hs.xb] at this
          exact this
      | err e => exact hcnt _ _ rfl rfl rfl rfl hr
      | blocked => exact hcnt _ _ rfl rfl rfl rfl hr
    · have e : ({ v with consumer := some (some r) } : Vol) = v := by rw [← hco]
      simp only [Core.startRead, Option.isSome_some, if_true]
      rw [e]
      exact h
  | finishRead =>
    refine nil ?_
    dsimp only [Vol.step, Vol.finishRead]
    have hr := h.reading
    rcases hco : v.consumer with _ | _ | r
    · exact h
    · exact h
    · rw [hco] at hr
      obtain ⟨x, hx, hxl, hr4⟩ := hr
      dsimp only
      obtain ⟨f1, f2⟩ := finishRead_counts v.core v.hasWrite r
      rw [hs.xb] at f2
      refine ⟨?_, rfl, ?_, ?_, ?_, ?_, ?_, ?_, ?_⟩
      · obtain ⟨A, B, g1, g2, g3, g4, g5, g6, g7⟩ := h.grants
        refine ⟨A, B, g1, g2, g3, g4, ?_, ?_, ?_⟩
        · show (v.core.finishRead v.hasWrite r).1.stats.recordsWritten = _
          rw [f2]; exact g5
        · show (v.core.finishRead v.hasWrite r).1.stats.bytesWritten = _
          rw [f2]; exact g6
        · show (v.core.finishRead v.hasWrite r).1.stats.totalBytesWritten = _
          rw [f2]; exact g7
      · show (v.core.finishRead v.hasWrite r).1.stats.recordsRead = (t.delivered ++ t.reading.toList.map (·.2)).length
        rw [f2, hx, List.length_append, ← h.rd]
        rfl
      · show (v.core.finishRead v.hasWrite r).1.stats.bytesRead = ((t.delivered ++ t.reading.toList.map (·.2)).map (·.length)).sum
        rw [f2, hx, List.map_append, List.sum_append, ← h.rb]
        simp [hxl]
      · show (v.core.finishRead v.hasWrite r).1.stats.totalBytesRead = (v.core.finishRead v.hasWrite r).1.stats.bytesRead + 4 * (v.core.finishRead v.hasWrite r).1.stats.recordsRead
        rw [f2]
        have := h.rt
        dsimp only
        omega
      · show (v.core.finishRead v.hasWrite r).1.stats.recordsRefused = _
        rw [f2]; exact h.rr
      · show (v.core.finishRead v.hasWrite r).1.stats.bytesRefused = _
        rw [f2]; exact h.br
      · show (v.core.finishRead v.hasWrite r).1.stats.recordsCorrupted = _
        rw [f2]; exact h.cor
      · show (v.core.finishRead v.hasWrite r).1.stats.totalDataLoss = _
        rw [f2]; exact h.dl
  | waitForDrain =>
    refine nil ?_
    dsimp only [Vol.step, Core.waitForDrain]
    split
    · exact ⟨h.grants, h.reading, h.rd, h.rb, h.rt, h.rr, h.br, h.cor, h.dl⟩
    · exact h
  | lock => exact nil ⟨h.grants, h.reading, h.rd, h.rb, h.rt, h.rr, h.br, h.cor, h.dl⟩
  | unlock => exact nil ⟨h.grants, h.reading, h.rd, h.rb, h.rt, h.rr, h.br, h.cor, h.dl⟩
  | shutdown =>
    refine nil ?_
    dsimp only [Vol.step, Core.doShutdown]
    split
    · exact h
    · exact ⟨h.grants, h.reading, h.rd, h.rb, h.rt, h.rr, h.br, h.cor, h.dl⟩

theorem VInv.run : ∀ (ops : List Op) {v : Vol} {t : Trace} {f : Fifo} {U O : List Slot} {refs : List (Nat × Code)}, Sim v f U O → VInv v t refs →
    VInv (v.run ops).1 (t.run ops (v.run ops).2) (refs ++ volRefusals t ops (v.run ops).2)
  | [], _, _, _, _, _, _, _, h => by rw [volRefusals, List.append_nil]; exact h; all_goals nofun
  | op :: ops, v, t, f, U, O, refs, hs, h => by
    obtain ⟨U', O', hs', _⟩ := hs.step op
    have := VInv.run ops hs' (h.step hs op)
    rw [List.append_assoc, ← volRefusals_cons] at this
    exact this

/-! ### C106 -/

/-- **C106, volatile.** For every history of calls, with any number of producers: the counters of written records and bytes are those of the
reservations before the first uncommitted one; the counters of reads are the records delivered; every refused request is counted once, and its bytes
unless its size could never fit; the totals are larger by four bytes per record; and no data loss or corruption is ever counted. -/
theorem C106_volatile (len : Nat) (mem : Mem) (hlen : len < 2 ^ 32) (ops : List Op) :
    let st := ((Vol.new len mem).run ops).1.core.stats
    let t := history len mem ops
    let refs := volRefusals Trace.empty ops ((Vol.new len mem).run ops).2
    st.recordsWritten = (t.grants.takeWhile (·.committed)).length ∧ st.bytesWritten = ((t.grants.takeWhile (·.committed)).map (·.slice.size)).sum ∧
    st.totalBytesWritten = st.bytesWritten + 4 * st.recordsWritten ∧
    st.recordsRead = t.delivered.length ∧ st.bytesRead = (t.delivered.map (·.length)).sum ∧ st.totalBytesRead = st.bytesRead + 4 * st.recordsRead ∧
    st.recordsRefused = refs.length ∧ st.bytesRefused = ((refs.filter (·.2 ≠ .invalidArgument)).map (·.1)).sum ∧
    st.recordsCorrupted = 0 ∧ st.totalDataLoss = 0 := by
  have h := VInv.run ops (Sim.new len mem hlen) (VInv.new len mem)
  rw [List.nil_append] at h
  intro st t refs
  obtain ⟨A, B, g1, g2, g3, g4, g5, g6, g7⟩ := h.grants
  have e : t.grants.takeWhile (·.committed) = A := by
    show (history len mem ops).grants.takeWhile _ = A
    unfold history
    rw [g1, List.takeWhile_append_of_pos g2]
    cases B with
    | nil => simp
    | cons b B => simp [g3 b rfl]
  rw [e]
  refine ⟨g5, g6, ?_, h.rd, h.rb, h.rt, h.rr, h.br, h.cor, h.dl⟩
  show ((Vol.new len mem).run ops).1.core.stats.totalBytesWritten = ((Vol.new len mem).run ops).1.core.stats.bytesWritten + 4 * ((Vol.new len mem).run ops).1.core.stats.recordsWritten
  rw [g7, g6, g5]

/-- **C106, persistent.** For every history of calls, waits, alterations of the file and restarts: what was committed and read is counted, records and
bytes; corrupt records that a plain consumer passed are counted as corrupt and as read; a request that was refused because the buffer was locked,
because of a concurrent read or because its size cannot fit is counted.  `loss` are the refusals because the records were lost, among those answered with
`Unavailable`; for a buffer that overwrites, and for callers that wait, they are all of these.  Without a loss there are none. -/
theorem C106_persistent_partial (K : Crc) (len : Nat) (crc ow bor : Bool) (ops : List NOp) :
    let st := ((NV.new K len crc ow bor).run K ops).1.core.stats
    let l := nvTally K len crc ow bor ops
    let xb := if crc then 8 else 4
    st.recordsWritten = l.written.length ∧ st.bytesWritten = l.written.sum ∧ st.totalBytesWritten = st.bytesWritten + xb * st.recordsWritten ∧
    l.read.length ≤ st.recordsRead ∧ st.recordsRead ≤ l.read.length + st.recordsCorrupted ∧ l.read.sum ≤ st.bytesRead ∧
    (st.recordsCorrupted = 0 → st.bytesRead = l.read.sum) ∧ st.totalBytesRead = st.bytesRead + xb * st.recordsRead ∧ (crc = false → st.recordsCorrupted = 0) ∧
    (∀ x ∈ l.refusals, x.2.2 = .failedPrecondition ∨ x.2.2 = .resourceExhausted ∨ x.2.2 = .invalidArgument ∨ x.2.2 = .unavailable ∨ x.2.2 = .aborted) ∧
    ∃ loss : List Nat, ∃ extra ≤ xb * loss.length,
      st.recordsRefused = (refusedWith l.refusals [.failedPrecondition, .resourceExhausted, .invalidArgument]).length + loss.length ∧
      st.bytesRefused = ((refusedWith l.refusals [.failedPrecondition, .resourceExhausted]).map (·.1)).sum + loss.sum + extra ∧
      loss.Sublist ((refusedWith l.refusals [.unavailable]).map (·.1)) ∧
      (((refusedWith l.refusals [.unavailable]).filter fun x => x.2.1 || ow).map (·.1)).Sublist loss ∧
      (st.totalDataLoss = 0 → loss = []) := by
  intro st l xb
  have h := (NInv.run K ops (NInv.new K len crc ow bor)).cnt
  obtain ⟨k, hk, hr⟩ := h.rd
  refine ⟨h.wr, h.wb, ?_, ?_, ?_, h.rl, h.rb, h.rt, h.cc, h.rf⟩
  · show ((NV.new K len crc ow bor).run K ops).1.core.stats.totalBytesWritten = ((NV.new K len crc ow bor).run K ops).1.core.stats.bytesWritten + (if crc then 8 else 4) * ((NV.new K len crc ow bor).run K ops).1.core.stats.recordsWritten
    rw [h.wt, h.wb, h.wr]
  · exact hr ▸ Nat.le_add_right ..
  · show ((NV.new K len crc ow bor).run K ops).1.core.stats.recordsRead ≤ _
    rw [hr]
    exact Nat.add_le_add_left hk _

/-- **C106 violated.** `records_refused` is documented as the records refused for lack of space without the ability to overwrite
(bd-buffer/src/buffer/mod.rs:44-45, 58-59).  The request of a caller that does not wait is refused for exactly that reason
(`AllowOverwrite::Block`, common_ring_buffer.rs), and not counted. -/
theorem C106_refused_violated :
    ∃ (len : Nat) (ops : List NOp), let l := nvTally testCrc len true false true ops
      l.refusals = [(20, false, .unavailable)] ∧
      ((NV.new testCrc len true false true).run testCrc ops).1.core.stats.recordsRefused = 0 ∧
      ((NV.new testCrc len true false true).run testCrc ops).1.core.stats.bytesRefused = 0 ∧
      ((NV.new testCrc len true false true).run testCrc ops).1.core.stats.totalDataLoss = 0 :=
  ⟨32, [.registerProducer, .reserve 20 false, .commit, .reserve 20 false], by decide +kernel⟩

/-- The hypotheses and all the counters of the persistent buffer at work: two records written, one read, a request too large and one while locked. -/
example :
    let ops := [.registerProducer, .registerConsumer] ++ put [1, 2, 3] ++ put [4, 5] ++
      [.startRead false, .finishRead, .reserve 100 false, .lock, .reserve 7 false, .unlock]
    let st := ((NV.new testCrc 64 true false true).run testCrc ops).1.core.stats
    let l := nvTally testCrc 64 true false true ops
    l.written = [3, 2] ∧ l.read = [3] ∧ l.refusals = [(100, false, .invalidArgument), (7, false, .failedPrecondition)] ∧
    st.recordsWritten = 2 ∧ st.bytesWritten = 5 ∧ st.totalBytesWritten = 21 ∧ st.recordsRead = 1 ∧ st.bytesRead = 3 ∧ st.totalBytesRead = 11 ∧
    st.recordsRefused = 2 ∧ st.bytesRefused = 7 := by decide +kernel

/-- The same for the volatile buffer: two producers, the second of which commits first. -/
example :
    let ops := [.registerConsumer, .reserve 1 5, .reserve 2 6, .commit 2, .reserve 3 100, .reserve 2 70, .commit 1, .startRead false, .finishRead, .reserve 1 50, .reserve 1 1]
    let st := ((Vol.new 64 fun _ => 0).run ops).1.core.stats
    let t := history 64 (fun _ => 0) ops
    t.grants.map (·.committed) = [true, true, false] ∧ t.delivered.length = 1 ∧
    volRefusals Trace.empty ops ((Vol.new 64 fun _ => 0).run ops).2 = [(100, .invalidArgument), (70, .invalidArgument)] ∧
    st.recordsWritten = 2 ∧ st.bytesWritten = 11 ∧ st.recordsRead = 1 ∧ st.recordsRefused = 2 ∧ st.bytesRefused = 0 := by decide +kernel

/-- A record that the plain consumer finds corrupt is counted as corrupt and as read. -/
example :
    let ops := [.registerProducer, .registerConsumer] ++ put [1, 2, 3] ++ put [4, 5] ++ [.alter 8 9, .startRead false, .finishRead]
    let st := ((NV.new testCrc 64 true false true).run testCrc ops).1.core.stats
    let l := nvTally testCrc 64 true false true ops
    l.read = [2] ∧ st.recordsRead = 2 ∧ st.recordsCorrupted = 1 ∧ st.bytesRead = 5 := by decide +kernel

end Verif.Buffer
