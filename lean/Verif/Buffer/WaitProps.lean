import Verif.Buffer.Wait
import Verif.Buffer.AggLemmas
import Verif.Buffer.CountersProps
import Verif.Buffer.NVProps

/-
C109: nobody sleeps on a ring buffer for something that has happened.
-/
namespace Verif.Buffer

/-! ### When a producer goes to sleep -/

theorem advanceForWrite_overwrite (busy : Bool) (t : Temp) (block : Bool) : ∀ (fuel : Nat) (c : Core), c.overwrite = true →
    (c.advanceForWrite busy t block fuel).2 ≠ .blocked
  | 0, _, _ => nofun
  | fuel + 1, c, ho => by
    unfold Core.advanceForWrite
    split
    · nofun
    · split
      · nofun
      · split
        · rw [if_neg (by simp [ho])]
          refine advanceForWrite_overwrite busy t block fuel _ ?_
          exact (congrArg (fun f => f.2.2.1) (fixed_advanceRead (Core.zeroExtra { c with stats := _ } _) _)).trans ho
        · nofun

/-- What the producer inside `reserve` waits for. -/
structure Full (c : Core) (t : Temp) (block : Bool) : Prop where
  ow : c.overwrite = false
  block : block = true
  sh : c.shutdown = false
  hit : ∃ n sz, c.nrs = some n ∧ c.loadSize n = some sz ∧ c.intersectReservation t ⟨n, sz + c.xb⟩ = true

theorem advanceForWrite_blocked {busy : Bool} {t : Temp} {block : Bool} {fuel : Nat} {c : Core} (h : (c.advanceForWrite busy t block fuel).2 = .blocked) :
    (c.advanceForWrite busy t block fuel).1 = c ∧ Full c t block := by
  cases ho : c.overwrite with
  | true => exact absurd h (advanceForWrite_overwrite busy t block fuel c ho)
  | false =>
    cases fuel with
    | zero => cases h
    | succ fuel =>
      unfold Core.advanceForWrite at h ⊢
      split at h
      · cases h
      · rename_i n hn
        split at h
        · cases h
        · rename_i sz hsz
          split at h
          · rename_i hi
            rw [if_pos (by simp [ho])] at h
            split at h
            · cases h
            · rename_i hb
              split at h
              · cases h
              · rename_i hs
                simp only [hn, hsz, if_pos hi]
                rw [if_pos (by simp [ho]), if_neg hb, if_neg hs]
                exact ⟨rfl, ho, by simpa using hb, by simpa using hs, n, sz, hn, hsz, hi⟩
          · cases h

theorem Full.blocks {c : Core} {t : Temp} {block : Bool} (h : Full c t block) (busy : Bool) (fuel : Nat) :
    c.advanceForWrite busy t block (fuel + 1) = (c, .blocked) := by
  obtain ⟨n, sz, hn, hsz, hi⟩ := h.hit
  unfold Core.advanceForWrite
  simp only [hn, hsz, if_pos hi]
  rw [if_pos (by simp [h.ow]), if_neg (by simp [h.block]), if_neg (by simp [h.sh])]

/-- The parked producer has to wait. -/
def Stuck (s : NV) (p : Parked) : Prop :=
  s.core.shutdown = false ∧ if p.onRead = true then s.blockOnRead = true ∧ s.readHit p.t = true else Full s.core p.t p.block

theorem Stuck.resume {s : NV} {p : Parked} (K : Crc) (hp : s.parked = some p) (h : Stuck s p) : (s.resume K).2 = .blocked := by
  obtain ⟨h1, h2⟩ := h
  unfold NV.resume
  rw [hp]
  dsimp only
  rw [if_neg (by simp [h1])]
  split
  · rename_i ho
    rw [if_pos ho] at h2
    unfold NV.passReader
    rw [if_pos h2.2, if_pos h2.1]
  · rename_i ho
    rw [if_neg ho] at h2
    unfold NV.takeSpace
    rw [show s.core.advanceFuel = (2 * s.core.len + 3) + 1 from rfl, h2.blocks]

theorem takeSpace_stuck {s : NV} {t : Temp} {size : Nat} {block : Bool} {K : Crc} (h : (s.takeSpace K t size block).2 = .blocked) :
    ∃ p, (s.takeSpace K t size block).1.parked = some p ∧ Stuck (s.takeSpace K t size block).1 p := by
  unfold NV.takeSpace at h ⊢
  have hb := advanceForWrite_blocked (busy := s.hasRead || s.hasWrite) (t := t) (block := block) (fuel := s.core.advanceFuel) (c := s.core)
  split at h
  · cases h
  · cases h
  · rename_i c heq
    rw [heq] at hb
    obtain ⟨h1, h2⟩ := hb rfl
    dsimp only at h1 ⊢
    subst h1
    refine ⟨_, rfl, h2.sh, ?_⟩
    rw [if_neg (by simp)]
    exact h2

theorem passReader_stuck {s : NV} {t : Temp} {size : Nat} {block : Bool} {K : Crc} (hs : s.core.shutdown = false) (h : (s.passReader K t size block).2 = .blocked) :
    ∃ p, (s.passReader K t size block).1.parked = some p ∧ Stuck (s.passReader K t size block).1 p := by
  unfold NV.passReader at h ⊢
  split at h
  · rename_i hr
    split at h
    · rename_i hb
      rw [if_pos hr, if_pos hb]
      refine ⟨_, rfl, hs, ?_⟩
      rw [if_pos rfl]
      exact ⟨hb, hr⟩
    · cases h
  · rename_i hr
    rw [if_neg hr]
    exact takeSpace_stuck h

theorem reserve_stuck {s : NV} {size : Nat} {block : Bool} {K : Crc} (hl : s.core.shutdown = true → 0 < s.core.lockCount) (h : (s.reserve K size block).2 = .blocked) :
    ∃ p, (s.reserve K size block).1.parked = some p ∧ Stuck (s.reserve K size block).1 p := by
  unfold NV.reserve at h ⊢
  split at h
  · cases h
  · cases h
  · have hf := fixed_startReserve s.core size
    split at h
    · cases h
    · rename_i c actual heq
      rw [heq] at hf
      refine passReader_stuck ?_ h
      simp only [Core.fixed, Prod.mk.injEq] at hf
      refine hf.2.2.2.2.trans ?_
      cases hsd : s.core.shutdown with
      | false => rfl
      | true =>
        have := hl hsd
        unfold Core.startReserve at heq
        rw [if_pos this] at heq
        cases heq

theorem resume_stuck {s : NV} {K : Crc} (h : (s.resume K).2 = .blocked) : ∃ p, (s.resume K).1.parked = some p ∧ Stuck (s.resume K).1 p := by
  unfold NV.resume at h ⊢
  split at h
  · cases h
  · rename_i p hp
    split at h
    · cases h
    · rename_i hs
      rw [if_neg hs]
      split at h
      · rename_i ho
        rw [if_pos ho]
        exact passReader_stuck (by simpa using hs) h
      · rename_i ho
        rw [if_neg ho]
        exact takeSpace_stuck h

/-! ### What reading leaves alone -/

/-- As far as the sleeping producer is concerned, nothing changed. -/
structure Mild (c c' : Core) : Prop where
  len : c'.len = c.len
  xb : c'.xb = c.xb
  ow : c'.overwrite = c.overwrite
  sh : c'.shutdown = c.shutdown
  nrs : c'.nrs = c.nrs
  size : ∀ n, c.nrs = some n → readMem c'.mem (c.sizeOffset n) 4 = readMem c.mem (c.sizeOffset n) 4

theorem Mild.refl (c : Core) : Mild c c := ⟨rfl, rfl, rfl, rfl, rfl, fun _ _ => rfl⟩

theorem Mild.trans {a b c : Core} (h : Mild a b) (h' : Mild b c) : Mild a c := by
  refine ⟨h'.len.trans h.len, h'.xb.trans h.xb, h'.ow.trans h.ow, h'.sh.trans h.sh, h'.nrs.trans h.nrs, fun n hn => ?_⟩
  have := h'.size n (h.nrs.trans hn)
  rw [show b.sizeOffset n = a.sizeOffset n by unfold Core.sizeOffset; rw [h.xb]] at this
  exact this.trans (h.size n hn)

theorem Mild.loadSize {c c' : Core} (h : Mild c c') {n : Nat} (hn : c.nrs = some n) : c'.loadSize n = c.loadSize n := by
  unfold Core.loadSize
  have e1 : c'.sizeOffset n = c.sizeOffset n := by unfold Core.sizeOffset; rw [h.xb]
  rw [e1, h.len, h.size n hn, h.xb]

theorem Mild.hit {c c' : Core} (h : Mild c c') (t : Temp) (r : Range) : c'.intersectReservation t r = c.intersectReservation t r := by
  unfold Core.intersectReservation Core.intersectWrapGap
  rw [h.len]

theorem Mild.full {c c' : Core} (h : Mild c c') {t : Temp} {block : Bool} (hf : Full c t block) : Full c' t block := by
  obtain ⟨n, sz, hn, hsz, hi⟩ := hf.hit
  refine ⟨h.ow.trans hf.ow, hf.block, h.sh.trans hf.sh, n, sz, h.nrs.trans hn, (h.loadSize hn).trans hsz, ?_⟩
  rw [h.hit, h.xb]
  exact hi

theorem mild_zeroExtra {c : Core} {n : Nat} (hn : c.nrs = some n) : Mild c (c.zeroExtra n) := by
  refine ⟨rfl, rfl, rfl, rfl, rfl, fun m hm => ?_⟩
  obtain rfl : n = m := by rw [hn] at hm; exact Option.some.inj hm
  refine readMem_congr fun i _ => writeMem_out _ _ _ _ (Or.inr ?_)
  simp only [List.length_replicate, Core.sizeOffset]
  omega

theorem startRead_mild {c : Core} {busy block : Bool} (h : (c.startRead busy block none).1.stats.totalDataLoss = c.stats.totalDataLoss) :
    Mild c (c.startRead busy block none).1 ∧ ∀ r, (c.startRead busy block none).2 = .ok r → (c.startRead busy block none).1.nrs = some r.start := by
  unfold Core.startRead at h ⊢
  rw [if_neg (by simp)] at h ⊢
  split
  · exact ⟨.refl _, nofun⟩
  · rename_i hpr
    rw [if_neg hpr] at h
    cases hn : c.nrs with
    | none =>
      dsimp only
      split
      · split <;> exact ⟨.refl _, nofun⟩
      · exact ⟨⟨rfl, rfl, rfl, rfl, rfl, fun _ _ => rfl⟩, nofun⟩
    | some n =>
      rw [hn] at h
      dsimp only at h ⊢
      cases hs : c.loadSize n with
      | some sz => exact ⟨.refl _, fun r hr => by cases hr; exact hn⟩
      | none =>
        rw [hs] at h
        dsimp only at h
        have := loss_stats c busy
        exfalso
        split at h
        · rw [this] at h; exact absurd h (by simp)
        · split at h
          · split at h <;> (rw [this] at h; exact absurd h (by simp))
          · rw [show ({ c.onTotalDataLoss busy with readable := false } : Core).stats = (c.onTotalDataLoss busy).stats from rfl, this] at h
            exact absurd h (by simp)

theorem mild_advanceCursor (c : Core) (n : Nat) : Mild c (c.advanceCursor n) := by
  unfold Core.advanceCursor
  split
  · split
    · split <;> exact ⟨rfl, rfl, rfl, rfl, rfl, fun _ _ => rfl⟩
    · exact ⟨rfl, rfl, rfl, rfl, rfl, fun _ _ => rfl⟩
  · exact ⟨rfl, rfl, rfl, rfl, rfl, fun _ _ => rfl⟩

theorem startReadCursor_mild {c : Core} {busy block : Bool} (h : (c.startReadCursor busy block).1.stats.totalDataLoss = c.stats.totalDataLoss) :
    Mild c (c.startReadCursor busy block).1 := by
  unfold Core.startReadCursor at h ⊢
  split
  · exact .refl _
  · rename_i hpr
    rw [if_neg hpr] at h
    cases hn : c.ncrs with
    | none =>
      dsimp only
      split
      · split <;> exact .refl _
      · exact ⟨rfl, rfl, rfl, rfl, rfl, fun _ _ => rfl⟩
    | some n =>
      rw [hn] at h
      dsimp only at h ⊢
      cases hs : c.loadSize n with
      | some sz => exact mild_advanceCursor c _
      | none =>
        rw [hs] at h
        dsimp only at h
        have := loss_stats c busy
        exfalso
        split at h
        · rw [this] at h; exact absurd h (by simp)
        · split at h
          · split at h <;> (rw [this] at h; exact absurd h (by simp))
          · rw [show ({ c.onTotalDataLoss busy with readable := false } : Core).stats = (c.onTotalDataLoss busy).stats from rfl, this] at h
            exact absurd h (by simp)

theorem plainLoop_mild (K : Crc) (block : Bool) (fuel : Nat) (s : NV)
    (h1 : (s.plainLoop K block fuel).1.core.stats.totalDataLoss = s.core.stats.totalDataLoss)
    (h2 : (s.plainLoop K block fuel).1.core.stats.recordsRead = s.core.stats.recordsRead) : Mild s.core (s.plainLoop K block fuel).1.core := by
  cases fuel with
  | zero => exact ⟨rfl, rfl, rfl, rfl, rfl, fun _ _ => rfl⟩
  | succ fuel =>
    have hm := startRead_mild (c := s.core) (busy := s.hasWrite) (block := block)
    obtain ⟨hk, ⟨td, ht, hle⟩, -⟩ := startRead_counts s.core s.hasWrite block none
    unfold NV.plainLoop at h1 h2 ⊢
    cases hp : s.core.startRead s.hasWrite block none with
    | mk c r =>
      rw [hp] at hm h1 h2 hk ht
      dsimp only at hm hk ht
      cases r with
      | ok r =>
        dsimp only at h1 h2 ⊢
        split
        · rename_i hc
          rw [if_pos hc] at h1 h2
          split
          · rename_i hq
            rw [if_pos hq] at h1
            obtain ⟨a, b⟩ := hm h1
            exact a.trans (mild_zeroExtra (b r rfl))
          · rename_i hq
            rw [if_neg hq] at h2
            exfalso
            obtain ⟨-, -, -, -, ⟨k, b, td, e, -⟩, -⟩ := plainLoop_counts K block fuel (({ s with core := (Core.finishRead { c.zeroExtra r.start with stats :=
              { (c.zeroExtra r.start).stats with recordsCorrupted := (c.zeroExtra r.start).stats.recordsCorrupted + 1 } } s.hasWrite r).1 } : NV).syncHdr K)
            rw [e] at h2
            have hf := (finishRead_counts { c.zeroExtra r.start with stats :=
              { (c.zeroExtra r.start).stats with recordsCorrupted := (c.zeroExtra r.start).stats.recordsCorrupted + 1 } } s.hasWrite r).2
            rw [show (({ s with core := (Core.finishRead { c.zeroExtra r.start with stats :=
              { (c.zeroExtra r.start).stats with recordsCorrupted := (c.zeroExtra r.start).stats.recordsCorrupted + 1 } } s.hasWrite r).1 } : NV).syncHdr K).core =
              (Core.finishRead { c.zeroExtra r.start with stats :=
              { (c.zeroExtra r.start).stats with recordsCorrupted := (c.zeroExtra r.start).stats.recordsCorrupted + 1 } } s.hasWrite r).1 from rfl, hf] at h2
            rw [show (c.zeroExtra r.start).stats = c.stats from rfl, ht] at h2
            dsimp only at h2
            omega
        · rename_i hc
          rw [if_neg hc] at h1
          exact (hm h1).1
      | err e =>
        dsimp only at h1 ⊢
        rw [(withCore_core K s c).1] at h1 ⊢
        exact (hm h1).1
      | blocked =>
        dsimp only at h1 ⊢
        rw [(withCore_core K s c).1] at h1 ⊢
        exact (hm h1).1

theorem cursorLoop_mild (K : Crc) (rs : List Range) (block : Bool) : ∀ (fuel : Nat) (s : NV),
    (s.cursorLoop K rs block fuel).1.core.stats.totalDataLoss = s.core.stats.totalDataLoss → Mild s.core (s.cursorLoop K rs block fuel).1.core
  | 0, _, _ => ⟨rfl, rfl, rfl, rfl, rfl, fun _ _ => rfl⟩
  | fuel + 1, s, h1 => by
    have hm := startReadCursor_mild (c := s.core) (busy := s.hasRead || s.hasWrite) (block := block)
    obtain ⟨hk, ⟨td, ht, hle⟩, -⟩ := startReadCursor_counts s.core (s.hasRead || s.hasWrite) block
    unfold NV.cursorLoop at h1 ⊢
    cases hp : s.core.startReadCursor (s.hasRead || s.hasWrite) block with
    | mk c r =>
      rw [hp] at hm h1 hk ht
      dsimp only at hm hk ht
      cases r with
      | ok r =>
        dsimp only at h1 ⊢
        split
        · rename_i hc
          rw [if_pos hc] at h1
          obtain ⟨-, -, -, -, ⟨k, td', e, hge, -⟩, -⟩ := cursorLoop_counts K rs block fuel
            { s with core := { c with stats := { c.stats with recordsCorrupted := c.stats.recordsCorrupted + 1 } } }
          have e' := congrArg Stats.totalDataLoss e
          dsimp only at e' hge
          have hc1 : c.stats.totalDataLoss = s.core.stats.totalDataLoss := by
            have : c.stats.totalDataLoss = td := by rw [ht]
            omega
          have ih := cursorLoop_mild K rs block fuel { s with core := { c with stats := { c.stats with recordsCorrupted := c.stats.recordsCorrupted + 1 } } }
            (h1.trans hc1.symm)
          refine Mild.trans (hm hc1) (Mild.trans ?_ ih)
          exact ⟨rfl, rfl, rfl, rfl, rfl, fun _ _ => rfl⟩
        · rename_i hc
          rw [if_neg hc] at h1
          exact hm h1
      | err e =>
        dsimp only at h1 ⊢
        rw [(withCore_core K s c).1] at h1 ⊢
        exact hm h1
      | blocked =>
        dsimp only at h1 ⊢
        rw [(withCore_core K s c).1] at h1 ⊢
        exact hm h1

/-! ### When a reader goes to sleep -/

theorem startRead_blocked {c : Core} {busy block : Bool} {q : Option Range} (h : (c.startRead busy block q).2 = .blocked) :
    (c.startRead busy block q).1.nrs = none ∧ (c.startRead busy block q).1.shutdown = false := by
  unfold Core.startRead at h ⊢
  split at h
  · cases h
  · rename_i h0
    split at h
    · cases h
    · rename_i hpr
      rw [if_neg h0, if_neg hpr]
      dsimp only at h ⊢
      split at h
      · rename_i hn
        split at h
        · rename_i hb
          split at h
          · cases h
          · rename_i hs
            rw [if_pos hb, if_neg hs]
            exact ⟨hn, by simpa using hs⟩
        · cases h
      · split at h
        · cases h
        · split at h
          · cases h
          · rename_i hp2
            split at h
            · rename_i hb
              split at h
              · cases h
              · rename_i hs
                rw [if_neg hp2, if_pos hb, if_neg hs]
                refine ⟨?_, by simpa using hs⟩
                unfold Core.onTotalDataLoss at hp2 ⊢
                cases busy with
                | true => exact absurd rfl hp2
                | false => rfl
            · cases h

theorem startReadCursor_blocked {c : Core} {busy block : Bool} (h : (c.startReadCursor busy block).2 = .blocked) :
    (c.startReadCursor busy block).1.ncrs = none ∧ (c.startReadCursor busy block).1.shutdown = false := by
  unfold Core.startReadCursor at h ⊢
  split at h
  · cases h
  · rename_i hpr
    rw [if_neg hpr]
    dsimp only at h ⊢
    split at h
    · rename_i hn
      split at h
      · rename_i hb
        split at h
        · cases h
        · rename_i hs
          rw [if_pos hb, if_neg hs]
          exact ⟨hn, by simpa using hs⟩
      · cases h
    · split at h
      · cases h
      · split at h
        · cases h
        · rename_i hp2
          split at h
          · rename_i hb
            split at h
            · cases h
            · rename_i hs
              rw [if_neg hp2, if_pos hb, if_neg hs]
              refine ⟨?_, by simpa using hs⟩
              unfold Core.onTotalDataLoss at hp2 ⊢
              cases busy with
              | true => exact absurd rfl hp2
              | false => rfl
          · cases h

theorem plainLoop_blocked (K : Crc) (block : Bool) : ∀ (fuel : Nat) (s : NV), (s.plainLoop K block fuel).2 = .blocked →
    (s.plainLoop K block fuel).1.core.nrs = none ∧ (s.plainLoop K block fuel).1.core.shutdown = false
  | 0, _, h => by cases h
  | fuel + 1, s, h => by
    have hb := startRead_blocked (c := s.core) (busy := s.hasWrite) (block := block) (q := none)
    unfold NV.plainLoop at h ⊢
    cases hp : s.core.startRead s.hasWrite block none with
    | mk c r =>
      rw [hp] at h hb
      cases r with
      | ok r =>
        dsimp only at h ⊢
        split at h
        · rename_i hc
          rw [if_pos hc]
          split at h
          · cases h
          · rename_i hq
            rw [if_neg hq]
            exact plainLoop_blocked K block fuel _ h
        · cases h
      | err e => cases h
      | blocked =>
        dsimp only
        rw [(withCore_core K s c).1]
        exact hb rfl

theorem cursorLoop_blocked (K : Crc) (rs : List Range) (block : Bool) : ∀ (fuel : Nat) (s : NV), (s.cursorLoop K rs block fuel).2 = .blocked →
    (s.cursorLoop K rs block fuel).1.core.ncrs = none ∧ (s.cursorLoop K rs block fuel).1.core.shutdown = false
  | 0, _, h => by cases h
  | fuel + 1, s, h => by
    have hb := startReadCursor_blocked (c := s.core) (busy := s.hasRead || s.hasWrite) (block := block)
    unfold NV.cursorLoop at h ⊢
    cases hp : s.core.startReadCursor (s.hasRead || s.hasWrite) block with
    | mk c r =>
      rw [hp] at h hb
      cases r with
      | ok r =>
        dsimp only at h ⊢
        split at h
        · rename_i hc
          rw [if_pos hc]
          exact cursorLoop_blocked K rs block fuel _ h
        · cases h
      | err e => cases h
      | blocked =>
        dsimp only
        rw [(withCore_core K s c).1]
        exact hb rfl

/-- The reader has to wait: no shutdown, and nothing for its kind of consumer to read. -/
def Dry (s : NV) : Prop :=
  s.core.shutdown = false ∧ ((∃ r, s.consumer = some (.plain r) ∧ s.core.nrs = none) ∨ ∃ rs, s.consumer = some (.cursor rs) ∧ s.core.ncrs = none)

theorem startRead_dry {s : NV} {K : Crc} {b : Bool} (h : (s.startRead K b).2 = .blocked) : Dry (s.startRead K b).1 := by
  unfold NV.startRead at h ⊢
  split at h
  · rename_i hc
    have hl := plainLoop_blocked K b s.core.advanceFuel s
    obtain ⟨-, -, -, -, -, hcon⟩ := plainLoop_counts K b s.core.advanceFuel s
    cases hp : s.plainLoop K b s.core.advanceFuel with
    | mk s' r =>
      rw [hp] at h hl hcon
      cases r with
      | ok r => cases h
      | err e => cases h
      | blocked =>
        dsimp only at hl hcon ⊢
        obtain ⟨h1, h2⟩ := hl rfl
        rcases hcon with ⟨r, hr, -⟩ | ⟨-, hr⟩
        · cases hr
        · exact ⟨h2, Or.inl ⟨none, hr.trans hc, h1⟩⟩
  · cases h
  · cases h

theorem cursorRead_dry {s : NV} {K : Crc} {b : Bool} (h : (s.cursorRead K b).2 = .blocked) : Dry (s.cursorRead K b).1 := by
  unfold NV.cursorRead at h ⊢
  split at h
  · rename_i rs hc
    have hl := cursorLoop_blocked K rs b s.core.advanceFuel s
    obtain ⟨-, -, -, -, -, hcon⟩ := cursorLoop_counts K rs b s.core.advanceFuel s
    cases hp : s.cursorLoop K rs b s.core.advanceFuel with
    | mk s' r =>
      rw [hp] at h hl hcon
      cases r with
      | ok r => cases h
      | err e => cases h
      | blocked =>
        dsimp only at hl hcon ⊢
        obtain ⟨h1, h2⟩ := hl rfl
        rcases hcon with ⟨r, hr, -⟩ | ⟨-, hr⟩
        · cases hr
        · exact ⟨h2, Or.inr ⟨rs, hr.trans hc, h1⟩⟩
  · cases h

/-! ### Reservations do not make anything readable -/

theorem advanceRead_none (c : Core) (n : Nat) : (c.advanceRead n).ncrs = c.ncrs := by
  unfold Core.advanceRead
  split
  · split
    · split <;> rfl
    · rfl
  · rfl

theorem advanceForWrite_none (busy : Bool) (t : Temp) (block : Bool) : ∀ (fuel : Nat) (c : Core),
    (c.nrs = none → (c.advanceForWrite busy t block fuel).1.nrs = none) ∧ (c.ncrs = none → (c.advanceForWrite busy t block fuel).1.ncrs = none)
  | 0, _ => ⟨id, id⟩
  | fuel + 1, c => by
    constructor
    · intro h
      unfold Core.advanceForWrite
      rw [h]
      exact h
    · intro h
      unfold Core.advanceForWrite
      split
      · exact h
      · split
        · show (c.onTotalDataLoss busy).ncrs = none
          unfold Core.onTotalDataLoss
          split
          · exact h
          · rfl
        · split
          · split
            · split
              · exact h
              · split <;> exact h
            · exact (advanceForWrite_none busy t block fuel _).2 ((advanceRead_none _ _).trans h)
          · exact h

theorem applyReservation_none (c : Core) (t : Temp) (n : Nat) : (c.applyReservation t n).nrs = c.nrs ∧ (c.applyReservation t n).ncrs = c.ncrs := by
  unfold Core.applyReservation
  dsimp only
  rw [finishReservation_eq]
  exact ⟨rfl, rfl⟩

/-- Nothing became readable, the consumer is who they were, and there is no shutdown. -/
structure Quiet (s s' : NV) : Prop where
  con : s'.consumer = s.consumer
  sh : s'.core.shutdown = s.core.shutdown
  nrs : s.core.nrs = none → s'.core.nrs = none
  ncrs : s.core.ncrs = none → s'.core.ncrs = none

theorem Quiet.refl (s : NV) : Quiet s s := ⟨rfl, rfl, id, id⟩

theorem Quiet.dry {s s' : NV} (h : Quiet s s') (hd : Dry s) : Dry s' := by
  refine ⟨h.sh.trans hd.1, ?_⟩
  rcases hd.2 with ⟨r, h1, h2⟩ | ⟨r, h1, h2⟩
  · exact Or.inl ⟨r, h.con.trans h1, h.nrs h2⟩
  · exact Or.inr ⟨r, h.con.trans h1, h.ncrs h2⟩

theorem takeSpace_quiet (K : Crc) (s : NV) (t : Temp) (size : Nat) (block : Bool) : Quiet s (s.takeSpace K t size block).1 := by
  have hn := advanceForWrite_none (s.hasRead || s.hasWrite) t block s.core.advanceFuel s.core
  have hf : (s.core.advanceForWrite (s.hasRead || s.hasWrite) t block s.core.advanceFuel).1.shutdown = s.core.shutdown :=
    congrArg (fun f => f.2.2.2.2) (fixed_advanceForWrite (s.hasRead || s.hasWrite) t block s.core.advanceFuel s.core)
  unfold NV.takeSpace
  split
  · rename_i c heq
    rw [heq] at hn hf
    obtain ⟨a1, a2⟩ := applyReservation_none c t size
    have a3 : (c.applyReservation t size).shutdown = c.shutdown := congrArg (fun f => f.2.2.2.2) (fixed_applyReservation c t size)
    exact ⟨rfl, a3.trans hf, fun h => a1.trans (hn.1 h), fun h => a2.trans (hn.2 h)⟩
  · rename_i c e heq
    rw [heq] at hn hf
    obtain ⟨w1, -, -, -, w2⟩ := withCore_core K s c
    refine ⟨w2, ?_, ?_, ?_⟩
    · exact (congrArg Core.shutdown w1).trans hf
    · exact fun h => (congrArg Core.nrs w1).trans (hn.1 h)
    · exact fun h => (congrArg Core.ncrs w1).trans (hn.2 h)
  · rename_i c heq
    rw [heq] at hn hf
    exact ⟨rfl, hf, hn.1, hn.2⟩

theorem passReader_quiet (K : Crc) (s : NV) (t : Temp) (size : Nat) (block : Bool) : Quiet s (s.passReader K t size block).1 := by
  unfold NV.passReader
  split
  · split <;> exact ⟨rfl, rfl, id, id⟩
  · exact takeSpace_quiet K s t size block

theorem startReserve_none (c : Core) (n : Nat) : (c.startReserve n).1.nrs = c.nrs ∧ (c.startReserve n).1.ncrs = c.ncrs ∧ (c.startReserve n).1.shutdown = c.shutdown := by
  unfold Core.startReserve
  split
  · exact ⟨rfl, rfl, rfl⟩
  · split
    · exact ⟨rfl, rfl, rfl⟩
    · split <;> exact ⟨rfl, rfl, rfl⟩

theorem Quiet.trans {a b c : NV} (h : Quiet a b) (h' : Quiet b c) : Quiet a c :=
  ⟨h'.con.trans h.con, h'.sh.trans h.sh, h'.nrs ∘ h.nrs, h'.ncrs ∘ h.ncrs⟩

theorem reserve_quiet (K : Crc) (s : NV) (size : Nat) (block : Bool) : Quiet s (s.reserve K size block).1 := by
  unfold NV.reserve
  split
  · exact .refl s
  · exact .refl s
  · obtain ⟨h1, h2, h3⟩ := startReserve_none s.core size
    split
    · rename_i c e heq
      rw [heq] at h1 h2 h3
      exact ⟨rfl, h3, h1.trans, h2.trans⟩
    · rename_i c a heq
      rw [heq] at h1 h2 h3
      exact Quiet.trans (b := { s with core := c }) ⟨rfl, h3, h1.trans, h2.trans⟩ (passReader_quiet K _ _ _ _)

theorem resume_quiet (K : Crc) (s : NV) : Quiet s (s.resume K).1 := by
  unfold NV.resume
  split
  · exact .refl s
  · split
    · exact ⟨rfl, rfl, id, id⟩
    · split
      · exact passReader_quiet K _ _ _ _
      · exact takeSpace_quiet K _ _ _ _

/-! ### Readers -/

theorem step_unit {s : NV} {K : Crc} {op : NOp} (h : s.parked.isSome = false ∨ op.usesProducer = false) : s.step K op = s.step' K op := by
  unfold NV.step
  rw [if_neg]
  rcases h with h | h <;> simp [h]

theorem Quiet.keep (s : NV) (op : NOp) (K : Crc) (hc : op.usesConsumer = false) (hr : op ≠ .restart)
    (hw : dataAvailable s (s.step K op).1 op (s.step K op).2 = false) (hd : Dry s) : Dry (s.step K op).1 := by
  cases hpu : (s.parked.isSome && op.usesProducer) with
  | true =>
    unfold NV.step
    rw [if_pos hpu]
    exact hd
  | false =>
    have e : s.step K op = s.step' K op := by
      unfold NV.step
      rw [if_neg (by simp [hpu])]
    rw [e] at hw ⊢
    cases op with
    | registerProducer =>
      dsimp only [NV.step']
      split
      · exact hd
      · exact Quiet.dry (s := s) ⟨rfl, rfl, id, id⟩ hd
    | dropProducer => exact Quiet.dry (s := s) ⟨rfl, rfl, id, id⟩ hd
    | reserve size block => exact (reserve_quiet K s size block).dry hd
    | resume => exact (resume_quiet K s).dry hd
    | write off bytes =>
      refine Quiet.dry (s := s) ?_ hd
      show Quiet s (s.write off bytes).1
      unfold NV.write
      split
      · split
        · exact ⟨rfl, rfl, id, id⟩
        · exact .refl s
      · exact .refl s
    | commit =>
      have hx : (s.step' K .commit) = ((s.commit K).1, .unit (s.commit K).2) := rfl
      rw [hx] at hw ⊢
      cases hres : (s.commit K).2 with
      | ok u =>
        rw [hres] at hw
        simp only [dataAvailable, Bool.or_eq_false_iff, Option.isNone_eq_false_iff, Option.isSome_iff_exists] at hw
        obtain ⟨⟨a, h1⟩, ⟨b, h2⟩⟩ := hw
        rcases hd.2 with ⟨r, -, h3⟩ | ⟨r, -, h3⟩
        · rw [h3] at h1; cases h1
        · rw [h3] at h2; cases h2
      | err e =>
        unfold NV.commit at hres ⊢
        split at hres
        · cases hres
        · exact hd
        · exact hd
      | blocked =>
        unfold NV.commit at hres
        split at hres <;> cases hres
    | registerConsumer =>
      dsimp only [NV.step']
      split
      · exact hd
      · rename_i hn
        rcases hd.2 with ⟨r, h3, -⟩ | ⟨r, h3, -⟩ <;> (rw [hn] at h3; cases h3)
    | registerCursor =>
      dsimp only [NV.step']
      split
      · exact hd
      · rename_i hn
        rcases hd.2 with ⟨r, h3, -⟩ | ⟨r, h3, -⟩ <;> (rw [hn] at h3; cases h3)
    | dropConsumer => cases hc
    | startRead b => cases hc
    | finishRead => cases hc
    | cursorRead b => cases hc
    | ack => cases hc
    | waitForDrain =>
      refine Quiet.dry (s := s) ?_ hd
      show Quiet s { s with core := (s.core.waitForDrain s.hasRead).1 }
      unfold Core.waitForDrain
      split <;> exact ⟨rfl, rfl, id, id⟩
    | lock => exact Quiet.dry (s := s) ⟨rfl, rfl, id, id⟩ hd
    | unlock => exact Quiet.dry (s := s) ⟨rfl, rfl, id, id⟩ hd
    | shutdown =>
      exfalso
      have hs := hd.1
      have : dataAvailable s { s with core := s.core.doShutdown } .shutdown (.unit (.ok ())) = true := by
        simp [dataAvailable, Core.doShutdown, hs]
      exact absurd (this.symm.trans hw) (by decide)
    | alter a b => exact Quiet.dry (s := s) ⟨rfl, rfl, id, id⟩ hd
    | restart => exact absurd rfl hr

def Wait.RwInv (w : Wait) : Prop := w.reader = true → w.inside = true ∧ Dry w.nv

theorem readerResume_dry {s : NV} {K : Crc} (h : (s.readerResume K).2.blocks = true) : Dry (s.readerResume K).1 := by
  unfold NV.readerResume at h ⊢
  split at h
  · rename_i r hc
    split at h
    · cases h
    · rename_i hs
      rw [if_neg hs]
      split at h
      · rename_i hn
        rw [if_pos hn]
        exact ⟨by simpa using hs, Or.inl ⟨r, hc, by simpa using hn⟩⟩
      · rename_i hn
        rw [if_neg hn]
        rw [step_unit (Or.inr rfl)] at h ⊢
        refine startRead_dry (s := s) (K := K) (b := true) ?_
        change Out.blocks (.record (s.startRead K true).2) = true at h
        cases hq : (s.startRead K true).2 with
        | blocked => rfl
        | ok x => rw [hq] at h; cases h
        | err e => rw [hq] at h; cases h
  · rename_i r hc
    split at h
    · cases h
    · rename_i hs
      rw [if_neg hs]
      split at h
      · rename_i hn
        rw [if_pos hn]
        exact ⟨by simpa using hs, Or.inr ⟨r, hc, by simpa using hn⟩⟩
      · rename_i hn
        rw [if_neg hn]
        rw [step_unit (Or.inr rfl)] at h ⊢
        refine cursorRead_dry (s := s) (K := K) (b := true) ?_
        change Out.blocks (.record (s.cursorRead K true).2) = true at h
        cases hq : (s.cursorRead K true).2 with
        | blocked => rfl
        | ok x => rw [hq] at h; cases h
        | err e => rw [hq] at h; cases h
  · cases h

theorem RwInv.step (K : Crc) (w : Wait) (h : w.RwInv) (op : WOp) : (w.step K op).1.RwInv := by
  cases op with
  | await =>
    unfold Wait.step
    dsimp only
    split <;> exact h
  | retry =>
    unfold Wait.step
    dsimp only
    split
    · intro hb
      exact ⟨hb, readerResume_dry hb⟩
    · exact h
  | call op =>
    unfold Wait.step
    dsimp only
    split
    · exact h
    · rename_i hno
      simp only [not_or, not_and] at hno
      obtain ⟨-, -, h3⟩ := hno
      have keep : op.usesConsumer = false → op ≠ .restart → w.reader = true → dataAvailable w.nv (w.nv.step K op).1 op (w.nv.step K op).2 = false →
          w.inside = true ∧ Dry (w.nv.step K op).1 := fun a b c d => ⟨(h c).1, Quiet.keep w.nv op K a b d (h c).2⟩
      have other : op.usesConsumer = true → w.reader = true → False := fun a b => absurd a (h3 (h b).1)
      cases op with
      | restart => intro hb; cases hb
      | reserve size block => exact fun hb => keep rfl (by simp) hb (by
          have : Quiet w.nv (w.nv.step K (.reserve size block)).1 := by
            unfold NV.step
            split
            · exact .refl _
            · exact reserve_quiet K w.nv size block
          show ((w.nv.step K (.reserve size block)).1.core.shutdown && !w.nv.core.shutdown) = false
          rw [this.sh]; simp)
      | resume => exact fun hb => keep rfl (by simp) hb (by
          have : Quiet w.nv (w.nv.step K .resume).1 := by
            rw [step_unit (Or.inr rfl)]
            exact resume_quiet K w.nv
          show ((w.nv.step K .resume).1.core.shutdown && !w.nv.core.shutdown) = false
          rw [this.sh]; simp)
      | startRead b =>
        intro hb
        refine ⟨hb, ?_⟩
        change (w.nv.step K (.startRead b)).2.blocks = true at hb
        show Dry (w.nv.step K (.startRead b)).1
        rw [step_unit (Or.inr rfl)] at hb ⊢
        refine startRead_dry (s := w.nv) (K := K) (b := b) ?_
        change Out.blocks (.record (w.nv.startRead K b).2) = true at hb
        cases hq : (w.nv.startRead K b).2 with
        | blocked => rfl
        | ok x => rw [hq] at hb; cases hb
        | err e => rw [hq] at hb; cases hb
      | cursorRead b =>
        intro hb
        refine ⟨hb, ?_⟩
        change (w.nv.step K (.cursorRead b)).2.blocks = true at hb
        show Dry (w.nv.step K (.cursorRead b)).1
        rw [step_unit (Or.inr rfl)] at hb ⊢
        refine cursorRead_dry (s := w.nv) (K := K) (b := b) ?_
        change Out.blocks (.record (w.nv.cursorRead K b).2) = true at hb
        cases hq : (w.nv.cursorRead K b).2 with
        | blocked => rfl
        | ok x => rw [hq] at hb; cases hb
        | err e => rw [hq] at hb; cases hb
      | dropConsumer | finishRead | ack =>
        intro hb
        exact (other rfl (by simpa [Wait.after] using (Bool.and_eq_true_iff.1 hb).1)).elim
      | registerProducer | dropProducer | write | commit | registerConsumer | registerCursor | waitForDrain | lock | unlock | shutdown | alter =>
        intro hb
        obtain ⟨b1, b2⟩ := Bool.and_eq_true_iff.1 hb
        exact keep rfl (by simp) b1 (by simpa using b2)

theorem RwInv.run (K : Crc) : ∀ (ops : List WOp) (w : Wait), w.RwInv → (w.run K ops).RwInv
  | [], _, h => h
  | op :: ops, w, h => RwInv.run K ops _ (RwInv.step K w h op)

/-! ### Producers -/

theorem Stuck.of {s s' : NV} {p : Parked} (h : Stuck s p) (hs : s'.core.shutdown = s.core.shutdown) (hl : s'.core.len = s.core.len)
    (hb : s'.blockOnRead = s.blockOnRead) (hr : p.onRead = true → s'.readRange = s.readRange) (hm : p.onRead = false → Mild s.core s'.core) : Stuck s' p := by
  refine ⟨hs.trans h.1, ?_⟩
  have h2 := h.2
  cases ho : p.onRead with
  | true =>
    rw [if_pos ho] at h2
    rw [if_pos rfl]
    refine ⟨hb.trans h2.1, ?_⟩
    have := h2.2
    unfold NV.readHit at this ⊢
    rw [hr ho]
    split at this
    · unfold Core.intersectReservation Core.intersectWrapGap at this ⊢
      rw [hl]
      exact this
    · cases this
  | false =>
    rw [if_neg (by simp [ho])] at h2
    rw [if_neg (by simp)]
    exact (hm ho).full h2

theorem startRead_core (s : NV) (K : Crc) (b : Bool) :
    (s.startRead K b).1 = s ∨ s.consumer = some (.plain none) ∧ (s.startRead K b).1 = (s.plainLoop K b s.core.advanceFuel).1 := by
  unfold NV.startRead
  split
  · rename_i hc
    refine Or.inr ⟨hc, ?_⟩
    cases s.plainLoop K b s.core.advanceFuel with
    | mk s' r => cases r <;> rfl
  · exact Or.inl rfl
  · exact Or.inl rfl

theorem cursorRead_core (s : NV) (K : Crc) (b : Bool) :
    (s.cursorRead K b).1 = s ∨ ∃ rs, s.consumer = some (.cursor rs) ∧ (s.cursorRead K b).1 = (s.cursorLoop K rs b s.core.advanceFuel).1 := by
  unfold NV.cursorRead
  split
  · rename_i rs hc
    refine Or.inr ⟨rs, hc, ?_⟩
    cases s.cursorLoop K rs b s.core.advanceFuel with
    | mk s' r => cases r <;> rfl
  · exact Or.inl rfl

theorem finishRead_res (s : NV) (K : Crc) : ((s.finishRead K).1 = s ∧ ∃ e, (s.finishRead K).2 = .err e) ∨
    (∃ w, (s.finishRead K).2 = .ok w) ∧ (s.finishRead K).1.core.stats.recordsRead = s.core.stats.recordsRead + 1 := by
  unfold NV.finishRead
  split
  · rename_i r hc
    refine Or.inr ⟨⟨_, rfl⟩, ?_⟩
    exact congrArg Stats.recordsRead (finishRead_counts s.core s.hasWrite r).2
  · exact Or.inl ⟨rfl, _, rfl⟩
  · exact Or.inl ⟨rfl, _, rfl⟩

theorem ack_res (s : NV) (K : Crc) : ((s.ack K).1 = s ∧ ∃ e, (s.ack K).2 = .err e) ∨
    (∃ w, (s.ack K).2 = .ok w) ∧ (s.ack K).1.core.stats.recordsRead = s.core.stats.recordsRead + 1 := by
  unfold NV.ack
  split
  · rename_i r rs hc
    refine Or.inr ⟨⟨_, rfl⟩, ?_⟩
    exact congrArg Stats.recordsRead (finishRead_counts s.core (!rs.isEmpty || s.hasWrite) r).2
  · exact Or.inl ⟨rfl, _, rfl⟩

theorem hit_range {s : NV} {t : Temp} (h : s.readHit t = true) : ∃ r, s.readRange = some r := by
  unfold NV.readHit at h
  split at h
  · exact ⟨_, ‹_›⟩
  · cases h

/-- What wakes the sleeping producer. -/
def wakes (onRead : Bool) (s s' : NV) (op : NOp) (o : Out) : Bool := if onRead then noConsumerReservation op o else readComplete s s'

theorem Stuck.keep {s : NV} {p : Parked} (K : Crc) (hp : s.parked = some p) (h : Stuck s p) (op : NOp) (hr : op ≠ .restart) (hm : op ≠ .resume)
    (ha : ∀ a b, op ≠ .alter a b) (hd : p.onRead = true → op ≠ .dropConsumer)
    (ht : (s.step K op).1.core.stats.totalDataLoss = s.core.stats.totalDataLoss) (hw : wakes p.onRead s (s.step K op).1 op (s.step K op).2 = false) :
    (s.step K op).1.parked = some p ∧ Stuck (s.step K op).1 p := by
  have hon : p.onRead = true → s.readHit p.t = true := fun ho => by
    have := h.2
    rw [if_pos ho] at this
    exact this.2
  cases hpu : op.usesProducer with
  | true =>
    unfold NV.step
    rw [if_pos (by simp [hp, hpu])]
    exact ⟨hp, h⟩
  | false =>
    have user : op.byUser false = true → (s.step K op).1.parked = some p ∧ (s.step K op).1.core.shutdown = s.core.shutdown ∧ (s.step K op).1.core.len = s.core.len ∧
        (s.step K op).1.blockOnRead = s.blockOnRead := fun hu => by
      have hsame := same_user K s op hu
      have hf := hsame.fixed
      exact ⟨hsame.parked.trans hp, congrArg (fun f => f.2.2.2.2) hf, congrArg (fun f => f.1) hf, hsame.block⟩
    rw [step_unit (Or.inr hpu)] at ht hw user ⊢
    cases op with
    | registerProducer =>
      dsimp only [NV.step']
      split
      · exact ⟨hp, h⟩
      · exact ⟨hp, h.of rfl rfl rfl (fun _ => rfl) (fun _ => .refl _)⟩
    | dropProducer => cases hpu
    | reserve size block => cases hpu
    | resume => exact absurd rfl hm
    | write off bytes => cases hpu
    | commit => cases hpu
    | registerConsumer =>
      dsimp only [NV.step']
      split
      · exact ⟨hp, h⟩
      · rename_i hn
        refine ⟨hp, h.of rfl rfl rfl (fun _ => ?_) (fun _ => .refl _)⟩
        unfold NV.readRange
        rw [hn]
    | registerCursor =>
      dsimp only [NV.step']
      split
      · exact ⟨hp, h⟩
      · rename_i hn
        split
        · exact ⟨hp, h⟩
        · refine ⟨hp, h.of rfl rfl rfl (fun _ => ?_) (fun _ => .refl _)⟩
          unfold NV.readRange
          rw [hn]
          rfl
    | dropConsumer => exact ⟨hp, h.of rfl rfl rfl (fun ho => absurd rfl (hd ho)) (fun _ => .refl _)⟩
    | startRead b =>
      obtain ⟨u1, u2, u3, u4⟩ := user rfl
      refine ⟨u1, h.of u2 u3 u4 (fun ho => ?_) (fun ho => ?_)⟩
      · show (s.startRead K b).1.readRange = _
        rcases startRead_core s K b with e | ⟨hc, -⟩
        · rw [e]
        · obtain ⟨r, hrr⟩ := hit_range (hon ho)
          unfold NV.readRange at hrr
          rw [hc] at hrr
          cases hrr
      · change (s.startRead K b).1.core.stats.totalDataLoss = _ at ht
        show Mild s.core (s.startRead K b).1.core
        rw [ho] at hw
        change readComplete s (s.startRead K b).1 = false at hw
        unfold readComplete at hw
        simp only [Bool.or_eq_false_iff, bne_eq_false_iff_eq] at hw
        rcases startRead_core s K b with e | ⟨-, e⟩
        · rw [e]; exact .refl _
        · rw [e] at ht hw ⊢
          exact plainLoop_mild K b _ s ht hw.1
    | finishRead =>
      rcases finishRead_res s K with ⟨e, -⟩ | ⟨⟨w, e⟩, e2⟩
      · show (s.finishRead K).1.parked = some p ∧ Stuck (s.finishRead K).1 p
        rw [e]
        exact ⟨hp, h⟩
      · exfalso
        change wakes p.onRead s (s.finishRead K).1 .finishRead (.finished (s.finishRead K).2) = false at hw
        unfold wakes at hw
        split at hw
        · rw [e] at hw; cases hw
        · simp [readComplete, e2] at hw
    | cursorRead b =>
      obtain ⟨u1, u2, u3, u4⟩ := user rfl
      refine ⟨u1, h.of u2 u3 u4 (fun ho => ?_) (fun ho => ?_)⟩
      · show (s.cursorRead K b).1.readRange = _
        rcases cursorRead_core s K b with e | ⟨rs, hc, e⟩
        · rw [e]
        · obtain ⟨r, hrr⟩ := hit_range (hon ho)
          obtain ⟨-, -, -, -, -, hcon⟩ := cursorLoop_counts K rs b s.core.advanceFuel s
          rw [e]
          rcases hcon with ⟨x, -, hx, -⟩ | ⟨-, hx⟩
          · unfold NV.readRange at hrr ⊢
            rw [hc] at hrr ⊢
            rw [hx]
            dsimp only at hrr ⊢
            cases rs with
            | nil => cases hrr
            | cons y ys => rfl
          · unfold NV.readRange
            rw [hx]
      · change (s.cursorRead K b).1.core.stats.totalDataLoss = _ at ht
        show Mild s.core (s.cursorRead K b).1.core
        rcases cursorRead_core s K b with e | ⟨rs, -, e⟩
        · rw [e]; exact .refl _
        · rw [e] at ht ⊢
          exact cursorLoop_mild K rs b _ s ht
    | ack =>
      rcases ack_res s K with ⟨e, -⟩ | ⟨⟨w, e⟩, e2⟩
      · show (s.ack K).1.parked = some p ∧ Stuck (s.ack K).1 p
        rw [e]
        exact ⟨hp, h⟩
      · exfalso
        change wakes p.onRead s (s.ack K).1 .ack (.finished (s.ack K).2) = false at hw
        unfold wakes at hw
        split at hw
        · rw [e] at hw; cases hw
        · simp [readComplete, e2] at hw
    | waitForDrain =>
      show ({ s with core := (s.core.waitForDrain s.hasRead).1 } : NV).parked = some p ∧ Stuck { s with core := (s.core.waitForDrain s.hasRead).1 } p
      unfold Core.waitForDrain
      split
      · exact ⟨hp, h.of rfl rfl rfl (fun _ => rfl) (fun _ => ⟨rfl, rfl, rfl, rfl, rfl, fun _ _ => rfl⟩)⟩
      · exact ⟨hp, h⟩
    | lock => exact ⟨hp, h.of rfl rfl rfl (fun _ => rfl) (fun _ => ⟨rfl, rfl, rfl, rfl, rfl, fun _ _ => rfl⟩)⟩
    | unlock => exact ⟨hp, h.of rfl rfl rfl (fun _ => rfl) (fun _ => ⟨rfl, rfl, rfl, rfl, rfl, fun _ _ => rfl⟩)⟩
    | shutdown =>
      exfalso
      change wakes p.onRead s { s with core := s.core.doShutdown } .shutdown (.unit (.ok ())) = false at hw
      unfold wakes at hw
      split at hw
      · cases hw
      · simp [readComplete, Core.doShutdown, h.1] at hw
    | alter a b => exact absurd rfl (ha a b)
    | restart => exact absurd rfl hr

/-- After a shutdown the buffer is locked for good. -/
def Shut (s : NV) : Prop := s.core.shutdown = true → 0 < s.core.lockCount

theorem Shut.fixed {s s' : NV} (h : Shut s) (hf : s'.core.fixed = s.core.fixed) : Shut s' := by
  intro hs
  rw [show s'.core.lockCount = s.core.lockCount from congrArg (fun f => f.2.2.2.1) hf]
  exact h ((congrArg (fun f => f.2.2.2.2) hf).symm.trans hs)

theorem wtake_fixed (K : Crc) (s : NV) (t : Temp) (size : Nat) (block : Bool) : (s.takeSpace K t size block).1.core.fixed = s.core.fixed := by
  have hf := fixed_advanceForWrite (s.hasRead || s.hasWrite) t block s.core.advanceFuel s.core
  unfold NV.takeSpace
  split
  · rename_i c heq
    rw [heq] at hf
    exact (fixed_applyReservation c t size).trans hf
  · rename_i c e heq
    rw [heq] at hf
    exact (congrArg Core.fixed (withCore_core K s c).1).trans hf
  · rename_i c heq
    rw [heq] at hf
    exact hf

theorem wpass_fixed (K : Crc) (s : NV) (t : Temp) (size : Nat) (block : Bool) : (s.passReader K t size block).1.core.fixed = s.core.fixed := by
  unfold NV.passReader
  split
  · split <;> rfl
  · exact wtake_fixed K s t size block

theorem wreserve_fixed (K : Crc) (s : NV) (size : Nat) (block : Bool) : (s.reserve K size block).1.core.fixed = s.core.fixed := by
  unfold NV.reserve
  split
  · rfl
  · rfl
  · have hf := fixed_startReserve s.core size
    split
    · rename_i c e heq
      rw [heq] at hf
      exact hf
    · rename_i c a heq
      rw [heq] at hf
      exact (wpass_fixed K _ _ _ _).trans hf

theorem wresume_fixed (K : Crc) (s : NV) : (s.resume K).1.core.fixed = s.core.fixed := by
  unfold NV.resume
  split
  · rfl
  · split
    · rfl
    · split
      · exact wpass_fixed K _ _ _ _
      · exact wtake_fixed K _ _ _ _

theorem wcommit_fixed (K : Crc) (s : NV) : (s.commit K).1.core.fixed = s.core.fixed := by
  unfold NV.commit
  split
  · exact (fixed_maybeReset _ _).trans (fixed_writeCrc K _ _ _)
  · rfl
  · rfl

theorem Shut.step {s : NV} (K : Crc) (h : Shut s) (op : NOp) (hu : op = .unlock → (if s.core.shutdown then 1 else 0) < s.core.lockCount) : Shut (s.step K op).1 := by
  cases hpu : (s.parked.isSome && op.usesProducer) with
  | true =>
    unfold NV.step
    rw [if_pos hpu]
    exact h
  | false =>
    have user : op.byUser false = true → (s.step K op).1.core.fixed = s.core.fixed := fun hu => (same_user K s op hu).fixed
    have e : s.step K op = s.step' K op := by
      unfold NV.step
      rw [if_neg (by simp [hpu])]
    rw [e] at user ⊢
    cases op with
    | registerProducer =>
      dsimp only [NV.step']
      split <;> exact h
    | dropProducer => exact h
    | reserve size block => exact h.fixed (wreserve_fixed K s size block)
    | resume => exact h.fixed (wresume_fixed K s)
    | write off bytes =>
      refine h.fixed ?_
      show (s.write off bytes).1.core.fixed = _
      unfold NV.write
      split
      · split <;> rfl
      · rfl
    | commit => exact h.fixed (wcommit_fixed K s)
    | registerConsumer | registerCursor | dropConsumer | startRead | finishRead | cursorRead | ack | waitForDrain | alter => exact h.fixed (user rfl)
    | lock => exact fun _ => Nat.succ_pos _
    | unlock =>
      intro hs
      have := hu rfl
      change s.core.shutdown = true at hs
      rw [if_pos hs] at this
      show 0 < s.core.lockCount - 1
      omega
    | shutdown =>
      show Shut { s with core := s.core.doShutdown }
      unfold Core.doShutdown
      split
      · exact h
      · exact fun _ => Nat.succ_pos _
    | restart =>
      dsimp only [NV.step']
      unfold NV.reopen
      split
      · rename_i heq
        split at heq
        · cases heq
        · cases heq
          exact nofun
      · exact h

def WOp.alters : WOp → Bool
  | .call (.alter ..) => true
  | _ => false

/-- What the producer's sleep is not protected from: a size word altered in the file, a total data loss found by the reader, and a consumer that is dropped with the
read it waits for.  `unlock` is called by who has the lock. -/
def Wait.Fine (K : Crc) (w : Wait) (op : WOp) : Prop :=
  (w.prod = true → (w.step K op).1.nv.core.stats.totalDataLoss = w.nv.core.stats.totalDataLoss ∧ op.alters = false ∧
    (w.onRead = true → op ≠ .call .dropConsumer)) ∧
  (op = .call .unlock → (if w.nv.core.shutdown then 1 else 0) < w.nv.core.lockCount)

def Wait.AllFine (K : Crc) (w : Wait) : List WOp → Prop
  | [] => True
  | op :: ops => w.Fine K op ∧ (w.step K op).1.AllFine K ops

structure Wait.PwInv (w : Wait) : Prop where
  stuck : w.prod = true → ∃ p, w.nv.parked = some p ∧ Stuck w.nv p
  shut : Shut w.nv

theorem Wait.onRead_some {w : Wait} {p : Parked} (h : w.nv.parked = some p) : w.onRead = p.onRead := by
  unfold Wait.onRead
  rw [h]

theorem slice_blocks {r : Res Range} (h : (Out.slice r).blocks = true) : r = .blocked := by
  cases r with
  | blocked => rfl
  | ok x => cases h
  | err e => cases h

theorem readerResume_step (s : NV) (K : Crc) : (s.readerResume K).1 = s ∨ s.readerResume K = s.step K (.startRead true) ∨ s.readerResume K = s.step K (.cursorRead true) := by
  unfold NV.readerResume
  split
  · split
    · exact Or.inl rfl
    · split
      · exact Or.inl rfl
      · exact Or.inr (Or.inl rfl)
  · split
    · exact Or.inl rfl
    · split
      · exact Or.inl rfl
      · exact Or.inr (Or.inr rfl)
  · exact Or.inl rfl

theorem PwInv.step (K : Crc) (w : Wait) (h : w.PwInv) (op : WOp) (hf : w.Fine K op) : (w.step K op).1.PwInv := by
  cases op with
  | await =>
    unfold Wait.step
    dsimp only
    split
    · exact ⟨h.stuck, h.shut⟩
    · exact h
  | retry =>
    obtain ⟨hf, -⟩ := hf
    unfold Wait.step at hf ⊢
    dsimp only at hf ⊢
    split
    · rename_i hin
      rw [if_pos hin] at hf
      constructor
      · intro hb
        change (w.prod && !(!w.onRead && readComplete w.nv (w.nv.readerResume K).1)) = true at hb
        change w.prod = true → (w.nv.readerResume K).1.core.stats.totalDataLoss = w.nv.core.stats.totalDataLoss ∧ _ at hf
        show ∃ p, (w.nv.readerResume K).1.parked = some p ∧ Stuck (w.nv.readerResume K).1 p
        obtain ⟨b1, b2⟩ := Bool.and_eq_true_iff.1 hb
        obtain ⟨p, hp, hs⟩ := h.stuck b1
        obtain ⟨f1, -, -⟩ := hf b1
        refine ⟨p, ?_⟩
        rw [Wait.onRead_some hp] at b2
        rcases readerResume_step w.nv K with e | e | e
        · rw [e]; exact ⟨hp, hs⟩
        · rw [e] at f1 b2 ⊢
          refine hs.keep K hp _ (by simp) (by simp) (by simp) (by simp) f1 ?_
          unfold wakes
          split
          · rfl
          · simp_all
        · rw [e] at f1 b2 ⊢
          refine hs.keep K hp _ (by simp) (by simp) (by simp) (by simp) f1 ?_
          unfold wakes
          split
          · rfl
          · simp_all
      · show Shut (w.nv.readerResume K).1
        rcases readerResume_step w.nv K with e | e | e
        · rw [e]; exact h.shut
        · rw [e]; exact h.shut.step K _ (by simp)
        · rw [e]; exact h.shut.step K _ (by simp)
    · exact h
  | call op =>
    obtain ⟨hf, hul⟩ := hf
    have hshut : Shut (w.nv.step K op).1 := h.shut.step K op (fun e => hul (by rw [e]))
    unfold Wait.step at hf ⊢
    dsimp only at hf ⊢
    split
    · exact h
    · rename_i hno
      rw [if_neg hno] at hf
      have hno' := hno
      simp only [not_or, not_and] at hno'
      obtain ⟨n1, n2, -⟩ := hno'
      have keep : op ≠ .restart → op ≠ .resume → (w.after op (w.nv.step K op)).nv = (w.nv.step K op).1 → w.prod = true →
          wakes w.onRead w.nv (w.nv.step K op).1 op (w.nv.step K op).2 = false →
          ∃ p, (w.nv.step K op).1.parked = some p ∧ Stuck (w.nv.step K op).1 p := by
        intro a1 a2 a3 b1 b2
        obtain ⟨p, hp, hs⟩ := h.stuck b1
        obtain ⟨f1, f2, f3⟩ := hf b1
        rw [a3] at f1
        rw [Wait.onRead_some hp] at b2 f3
        exact ⟨p, hs.keep K hp op a1 a2 (fun a b e => by rw [e] at f2; cases f2) (fun ho e => f3 ho (by rw [e])) f1 b2⟩
      cases op with
      | restart => exact ⟨nofun, hshut⟩
      | reserve size block =>
        refine ⟨fun hb => ?_, hshut⟩
        have hpn : w.nv.parked.isSome = false := by
          cases hx : w.nv.parked.isSome with
          | false => rfl
          | true => exact absurd rfl (n2 hx)
        change (w.nv.step K (.reserve size block)).2.blocks = true at hb
        show ∃ p, (w.nv.step K (.reserve size block)).1.parked = some p ∧ Stuck (w.nv.step K (.reserve size block)).1 p
        rw [step_unit (Or.inl hpn)] at hb ⊢
        exact reserve_stuck (s := w.nv) (K := K) h.shut (slice_blocks hb)
      | resume =>
        refine ⟨fun hb => ?_, hshut⟩
        change (w.nv.step K .resume).2.blocks = true at hb
        show ∃ p, (w.nv.step K .resume).1.parked = some p ∧ Stuck (w.nv.step K .resume).1 p
        rw [step_unit (Or.inr rfl)] at hb ⊢
        exact resume_stuck (s := w.nv) (K := K) (slice_blocks hb)
      | startRead b =>
        refine ⟨fun hb => ?_, hshut⟩
        obtain ⟨b1, b2⟩ := Bool.and_eq_true_iff.1 hb
        refine keep (by simp) (by simp) rfl b1 ?_
        unfold wakes
        split
        · rfl
        · simp_all
      | cursorRead b =>
        refine ⟨fun hb => ?_, hshut⟩
        obtain ⟨b1, b2⟩ := Bool.and_eq_true_iff.1 hb
        refine keep (by simp) (by simp) rfl b1 ?_
        unfold wakes
        split
        · rfl
        · simp_all
      | registerProducer | dropProducer | write | commit | registerConsumer | registerCursor | waitForDrain | lock | unlock | shutdown | alter | dropConsumer | finishRead | ack =>
        refine ⟨fun hb => ?_, hshut⟩
        obtain ⟨b1, b2⟩ := Bool.and_eq_true_iff.1 hb
        exact keep (by simp) (by simp) rfl b1 (by simpa [wakes] using b2)

theorem PwInv.run (K : Crc) : ∀ (ops : List WOp) (w : Wait), w.PwInv → w.AllFine K ops → (w.run K ops).PwInv
  | [], _, h, _ => h
  | op :: ops, w, h, hf => PwInv.run K ops _ (PwInv.step K w h op hf.1) hf.2

/-! ### Those who wait for the reservations to end -/

theorem takeSpace_producer (K : Crc) (s : NV) (t : Temp) (size : Nat) (block : Bool) :
    (s.takeSpace K t size block).1.producer = s.producer ∨ (s.takeSpace K t size block).1.producer = some (some t.range) := by
  unfold NV.takeSpace
  split
  · exact Or.inr rfl
  · rename_i c e heq
    exact Or.inl (withCore_core K s c).2.2.1
  · exact Or.inl rfl

theorem passReader_producer (K : Crc) (s : NV) (t : Temp) (size : Nat) (block : Bool) :
    (s.passReader K t size block).1.producer = s.producer ∨ (s.passReader K t size block).1.producer = some (some t.range) := by
  unfold NV.passReader
  split
  · split <;> exact Or.inl rfl
  · exact takeSpace_producer K s t size block

theorem hasWrite_of {s s' : NV} {r : Range} (h : s.hasWrite = true) (hp : s'.producer = s.producer ∨ s'.producer = some (some r)) : s'.hasWrite = true := by
  unfold NV.hasWrite at h ⊢
  rcases hp with e | e
  · rw [e]; exact h
  · rw [e]

theorem hasWrite_keep (K : Crc) (s : NV) (op : NOp) (h : s.hasWrite = true) (hd : op ≠ .dropProducer) (hr : op ≠ .restart)
    (hw : noProducerReservation op (s.step K op).2 = false) : (s.step K op).1.hasWrite = true := by
  have user : op.byUser false = true → (s.step K op).1.hasWrite = true := fun hu => hasWrite_of (r := ⟨0, 0⟩) h (Or.inl (same_user K s op hu).producer)
  obtain ⟨r, hp⟩ : ∃ r, s.producer = some (some r) := by
    unfold NV.hasWrite at h
    split at h
    · exact ⟨_, ‹_›⟩
    · cases h
  cases hpu : (s.parked.isSome && op.usesProducer) with
  | true =>
    unfold NV.step
    rw [if_pos hpu]
    exact h
  | false =>
    have e : s.step K op = s.step' K op := by
      unfold NV.step
      rw [if_neg (by simp [hpu])]
    rw [e] at hw user ⊢
    cases op with
    | registerProducer =>
      dsimp only [NV.step']
      rw [hp]
      exact h
    | dropProducer => exact absurd rfl hd
    | reserve size block =>
      show (s.reserve K size block).1.hasWrite = true
      unfold NV.reserve
      rw [hp]
      exact h
    | resume =>
      show (s.resume K).1.hasWrite = true
      unfold NV.resume
      split
      · exact h
      · split
        · exact h
        · split
          · exact hasWrite_of h (passReader_producer K _ _ _ _)
          · exact hasWrite_of h (takeSpace_producer K _ _ _ _)
    | write off bytes =>
      show (s.write off bytes).1.hasWrite = true
      unfold NV.write
      split
      · split <;> exact h
      · exact h
    | commit =>
      exfalso
      change noProducerReservation .commit (.unit (s.commit K).2) = false at hw
      unfold NV.commit at hw
      rw [hp] at hw
      cases hw
    | registerConsumer | registerCursor | dropConsumer | startRead | finishRead | cursorRead | ack | waitForDrain | alter => exact user rfl
    | lock => exact h
    | unlock => exact h
    | shutdown => exact h
    | restart => exact absurd rfl hr

def Wait.AwInv (w : Wait) : Prop := w.awaits ≠ 0 → w.nv.hasWrite = true

/-- No producer is dropped with its reservation while somebody waits for the reservations to end. -/
def Wait.Kept (w : Wait) (op : WOp) : Prop := w.awaits ≠ 0 → op ≠ .call .dropProducer

def Wait.AllKept (K : Crc) (w : Wait) : List WOp → Prop
  | [] => True
  | op :: ops => w.Kept op ∧ (w.step K op).1.AllKept K ops

theorem AwInv.step (K : Crc) (w : Wait) (h : w.AwInv) (op : WOp) (hf : w.Kept op) : (w.step K op).1.AwInv := by
  cases op with
  | await =>
    unfold Wait.step
    dsimp only
    split
    · rename_i hw
      exact fun _ => hw
    · exact h
  | retry =>
    unfold Wait.step
    dsimp only
    split
    · intro ha
      change w.awaits ≠ 0 at ha
      show (w.nv.readerResume K).1.hasWrite = true
      rcases readerResume_step w.nv K with e | e | e
      · rw [e]; exact h ha
      · rw [e]; exact hasWrite_keep K _ _ (h ha) (by simp) (by simp) rfl
      · rw [e]; exact hasWrite_keep K _ _ (h ha) (by simp) (by simp) rfl
    · exact h
  | call op =>
    unfold Wait.step
    dsimp only
    split
    · exact h
    · have keep : w.awaits ≠ 0 → op ≠ .restart → noProducerReservation op (w.nv.step K op).2 = false → (w.nv.step K op).1.hasWrite = true :=
        fun a b c => hasWrite_keep K _ _ (h a) (fun e => hf a (by rw [e])) b c
      cases op with
      | restart => exact fun ha => absurd rfl ha
      | reserve size block => exact fun ha => keep ha (by simp) rfl
      | resume => exact fun ha => keep ha (by simp) rfl
      | startRead b => exact fun ha => keep ha (by simp) rfl
      | cursorRead b => exact fun ha => keep ha (by simp) rfl
      | registerProducer | dropProducer | write | commit | registerConsumer | registerCursor | waitForDrain | lock | unlock | shutdown | alter | dropConsumer | finishRead | ack =>
        intro ha
        simp only [Wait.after] at ha
        split at ha
        · exact absurd rfl ha
        · rename_i hn
          exact keep ha (by simp) (by simpa using hn)

theorem AwInv.run (K : Crc) : ∀ (ops : List WOp) (w : Wait), w.AwInv → w.AllKept K ops → (w.run K ops).AwInv
  | [], _, h, _ => h
  | op :: ops, w, h, hf => AwInv.run K ops _ (AwInv.step K w h op hf.1) hf.2

/-! ### C109 -/

section
variable (K : Crc) (len : Nat) (crc overwrite blockOnRead : Bool)

/-- C109: a consumer asleep in a blocking read has nothing to read, and there is no shutdown. -/
theorem C109_reader (ops : List WOp) (h : ((Wait.new K len crc overwrite blockOnRead).run K ops).reader = true) :
    let s := ((Wait.new K len crc overwrite blockOnRead).run K ops).nv
    s.core.shutdown = false ∧ ((∃ r, s.consumer = some (.plain r) ∧ s.core.nrs = none) ∨ ∃ rs, s.consumer = some (.cursor rs) ∧ s.core.ncrs = none) :=
  ((RwInv.run K ops (Wait.new K len crc overwrite blockOnRead) nofun) h).2

/-- C109 for the producer, when nothing of what its sleep is not protected from happens (`Fine`): a producer asleep in `reserve` could not go on if it were
woken, there is no shutdown, and it waits for a read that is not finished or for a record that is not read. -/
theorem C109_producer_partial (ops : List WOp) (hf : (Wait.new K len crc overwrite blockOnRead).AllFine K ops)
    (h : ((Wait.new K len crc overwrite blockOnRead).run K ops).prod = true) :
    let s := ((Wait.new K len crc overwrite blockOnRead).run K ops).nv
    (s.resume K).2 = .blocked ∧ s.core.shutdown = false ∧ ∃ p, s.parked = some p ∧
      if p.onRead then s.readRange.isSome = true else s.core.overwrite = false ∧ s.core.nrs.isSome = true := by
  obtain ⟨p, hp, hs⟩ := (PwInv.run K ops (Wait.new K len crc overwrite blockOnRead) ⟨nofun, nofun⟩ hf).stuck h
  refine ⟨hs.resume K hp, hs.1, p, hp, ?_⟩
  have h2 := hs.2
  split at h2
  · rename_i ho
    rw [if_pos ho]
    obtain ⟨r, hr⟩ := hit_range h2.2
    rw [hr]
    rfl
  · rename_i ho
    rw [if_neg ho]
    obtain ⟨n, sz, hn, -⟩ := h2.hit
    exact ⟨h2.ow, by rw [hn]; rfl⟩

/-- C109 for those who wait for the reservations to end, when no producer is dropped with its reservation meanwhile. -/
theorem C109_await_partial (ops : List WOp) (hf : (Wait.new K len crc overwrite blockOnRead).AllKept K ops)
    (h : ((Wait.new K len crc overwrite blockOnRead).run K ops).awaits ≠ 0) :
    ∃ r, ((Wait.new K len crc overwrite blockOnRead).run K ops).nv.producer = some (some r) := by
  have := AwInv.run K ops (Wait.new K len crc overwrite blockOnRead) nofun hf h
  unfold NV.hasWrite at this
  split at this
  · exact ⟨_, ‹_›⟩
  · cases this

end

/-! #### What the sleepers are not protected from -/

/-- Both the producer and the consumer are asleep. -/
structure Wait.Dead (w : Wait) : Prop where
  prod : w.prod = true
  parked : w.nv.parked.isSome = true
  inside : w.inside = true
  reader : w.reader = true

theorem other_reads (K : Crc) (s : NV) (op : NOp) (hp : op.usesProducer = false) (hc : op.usesConsumer = false) (hm : op ≠ .resume) (hs : op ≠ .shutdown)
    (hr : op ≠ .restart) : (s.step K op).1.parked = s.parked ∧ readComplete s (s.step K op).1 = false ∧
      noConsumerReservation op (s.step K op).2 = false ∧ dataAvailable s (s.step K op).1 op (s.step K op).2 = false := by
  have key : ∀ s' : NV, s'.core.stats = s.core.stats → s'.core.shutdown = s.core.shutdown → readComplete s s' = false ∧ (s'.core.shutdown && !s.core.shutdown) = false :=
    fun s' h1 h2 => by simp [readComplete, h1, h2]
  rw [step_unit (Or.inr hp)]
  cases op with
  | registerProducer =>
    dsimp only [NV.step']
    split
    · exact ⟨rfl, (key s rfl rfl).1, rfl, (key s rfl rfl).2⟩
    · exact ⟨rfl, (key { s with producer := some none } rfl rfl).1, rfl, (key { s with producer := some none } rfl rfl).2⟩
  | registerConsumer =>
    dsimp only [NV.step']
    split
    · exact ⟨rfl, (key s rfl rfl).1, rfl, (key s rfl rfl).2⟩
    · exact ⟨rfl, (key { s with consumer := some (.plain none) } rfl rfl).1, rfl, (key { s with consumer := some (.plain none) } rfl rfl).2⟩
  | registerCursor =>
    dsimp only [NV.step']
    split
    · exact ⟨rfl, (key s rfl rfl).1, rfl, (key s rfl rfl).2⟩
    · split
      · exact ⟨rfl, (key s rfl rfl).1, rfl, (key s rfl rfl).2⟩
      · exact ⟨rfl, (key { s with consumer := some (.cursor []) } rfl rfl).1, rfl, (key { s with consumer := some (.cursor []) } rfl rfl).2⟩
  | waitForDrain =>
    have k := key { s with core := (s.core.waitForDrain s.hasRead).1 } (by unfold Core.waitForDrain; split <;> rfl) (by unfold Core.waitForDrain; split <;> rfl)
    exact ⟨rfl, k.1, rfl, k.2⟩
  | lock =>
    have k := key { s with core := { s.core with lockCount := s.core.lockCount + 1 } } rfl rfl
    exact ⟨rfl, k.1, rfl, k.2⟩
  | unlock =>
    have k := key { s with core := { s.core with lockCount := s.core.lockCount - 1 } } rfl rfl
    exact ⟨rfl, k.1, rfl, k.2⟩
  | alter a b =>
    have k := key { s with core := { s.core with mem := writeMem s.core.mem a [b] } } rfl rfl
    exact ⟨rfl, k.1, rfl, k.2⟩
  | shutdown => exact absurd rfl hs
  | restart => exact absurd rfl hr
  | resume => exact absurd rfl hm
  | dropProducer | reserve | write | commit => cases hp
  | dropConsumer | startRead | finishRead | cursorRead | ack => cases hc

theorem Dead.step (K : Crc) (w : Wait) (h : w.Dead) (op : WOp) (hs : op ≠ .call .shutdown) (hr : op ≠ .call .restart) : (w.step K op).1.Dead := by
  cases op with
  | await =>
    unfold Wait.step
    dsimp only
    split
    · exact ⟨h.prod, h.parked, h.inside, h.reader⟩
    · exact h
  | retry =>
    unfold Wait.step
    dsimp only
    rw [if_neg (by simp [h.reader])]
    exact h
  | call op =>
    unfold Wait.step
    dsimp only
    split
    · exact h
    · rename_i hno
      simp only [not_or, not_and] at hno
      obtain ⟨n1, n2, n3⟩ := hno
      have m1 : op.usesProducer = false := by simpa using n2 h.parked
      have m2 : op.usesConsumer = false := by simpa using n3 h.inside
      have m3 : op ≠ .resume := fun e => n1 e h.prod
      obtain ⟨o1, o2, o3, o4⟩ := other_reads K w.nv op m1 m2 m3 (fun e => hs (by rw [e])) (fun e => hr (by rw [e]))
      have e : w.after op (w.nv.step K op) = { w with
          nv := (w.nv.step K op).1
          prod := w.prod && !(if w.onRead then noConsumerReservation op (w.nv.step K op).2 else readComplete w.nv (w.nv.step K op).1)
          reader := w.reader && !dataAvailable w.nv (w.nv.step K op).1 op (w.nv.step K op).2
          awaits := if noProducerReservation op (w.nv.step K op).2 then 0 else w.awaits } := by
        cases op with
        | restart => exact absurd rfl hr
        | resume => exact absurd rfl m3
        | reserve => cases m1
        | startRead => cases m2
        | cursorRead => cases m2
        | _ => rfl
      rw [e]
      refine ⟨?_, ?_, h.inside, ?_⟩
      · show (w.prod && !(if w.onRead then _ else _)) = true
        rw [h.prod, o2, o3]
        simp
      · show (w.nv.step K op).1.parked.isSome = true
        rw [o1]
        exact h.parked
      · show (w.reader && !dataAvailable _ _ _ _) = true
        rw [h.reader, o4]
        rfl

theorem Dead.run (K : Crc) : ∀ (ops : List WOp) (w : Wait), w.Dead → (∀ op ∈ ops, op ≠ .call .shutdown ∧ op ≠ .call .restart) → (w.run K ops).Dead
  | [], _, h, _ => h
  | op :: ops, w, h, ho => Dead.run K ops _ (Dead.step K w h op (ho op (by simp)).1 (ho op (by simp)).2) (fun x hx => ho x (by simp [hx]))

def wcalls (l : List NOp) : List WOp := l.map .call

/-- A full buffer, a producer waiting for room, and a reader that finds the size of the oldest record destroyed: the buffer is emptied, the reader goes to sleep and
nobody wakes the producer. -/
def lossOps : List WOp :=
  wcalls ([.registerProducer, .registerConsumer] ++ put [1, 2, 3, 4, 5, 6, 7, 8, 9, 10, 11, 12] ++ put [1, 2, 3, 4, 5, 6, 7, 8] ++ [.reserve 12 true, .alter 0 0, .startRead true])

/-- C109 fails for the producer: it and the reader both sleep over an empty buffer, which the producer could write to (it would be let in if it were woken), and they do
so for good: until a shutdown or a restart. -/
theorem C109_loss_violated :
    let w := (Wait.new testCrc 32 false false true).run testCrc lossOps
    (w.nv.resume testCrc).2 = .ok ⟨4, 12⟩ ∧ w.nv.core.nrs = none ∧
    ∀ ops : List WOp, (∀ op ∈ ops, op ≠ .call .shutdown ∧ op ≠ .call .restart) → (w.run testCrc ops).prod = true ∧ (w.run testCrc ops).reader = true := by
  have h : ((Wait.new testCrc 32 false false true).run testCrc lossOps).prod = true ∧
      ((Wait.new testCrc 32 false false true).run testCrc lossOps).nv.parked.isSome = true ∧
      ((Wait.new testCrc 32 false false true).run testCrc lossOps).inside = true ∧
      ((Wait.new testCrc 32 false false true).run testCrc lossOps).reader = true := by decide +kernel
  refine ⟨by decide +kernel, by decide +kernel, fun ops ho => ?_⟩
  have := Dead.run testCrc ops _ ⟨h.1, h.2.1, h.2.2.1, h.2.2.2⟩ ho
  exact ⟨this.prod, this.reader⟩

/-- The producer waits for a read and there is no consumer. -/
structure Wait.Left (w : Wait) : Prop where
  prod : w.prod = true
  parked : ∃ p, w.nv.parked = some p ∧ p.onRead = true
  consumer : w.nv.consumer = none

theorem Left.step (K : Crc) (w : Wait) (h : w.Left) (op : WOp)
    (ho : op ≠ .call .shutdown ∧ op ≠ .call .restart ∧ op ≠ .call .registerConsumer ∧ op ≠ .call .registerCursor) : (w.step K op).1.Left := by
  obtain ⟨hs, hr, hc1, hc2⟩ := ho
  obtain ⟨p, hp, hon⟩ := h.parked
  have hor : w.onRead = true := by rw [Wait.onRead_some hp, hon]
  cases op with
  | await =>
    unfold Wait.step
    dsimp only
    split
    · exact ⟨h.prod, h.parked, h.consumer⟩
    · exact h
  | retry =>
    unfold Wait.step
    dsimp only
    split
    · have e : w.nv.readerResume K = (w.nv, .record (.err .failedPrecondition)) := by
        unfold NV.readerResume
        rw [h.consumer]
      rw [e]
      refine ⟨?_, h.parked, h.consumer⟩
      show (w.prod && !(!w.onRead && readComplete w.nv w.nv)) = true
      rw [h.prod, hor]
      rfl
    · exact h
  | call op =>
    unfold Wait.step
    dsimp only
    split
    · exact h
    · rename_i hno
      simp only [not_or, not_and] at hno
      obtain ⟨n1, n2, n3⟩ := hno
      have m1 : op.usesProducer = false := by simpa using n2 (by rw [hp]; rfl)
      have m3 : op ≠ .resume := fun e => n1 e h.prod
      cases m2 : op.usesConsumer with
      | true =>
        have e : w.nv.step K op = w.nv.step' K op := step_unit (Or.inr m1)
        rw [e]
        cases op with
        | dropConsumer =>
          refine ⟨?_, ⟨p, hp, hon⟩, rfl⟩
          show (w.prod && !(if w.onRead then false else _)) = true
          rw [h.prod, hor]; rfl
        | startRead b =>
          have e : w.nv.step' K (.startRead b) = (w.nv, .record (.err .failedPrecondition)) := by
            dsimp only [NV.step']
            unfold NV.startRead
            rw [h.consumer]
          rw [e]
          refine ⟨?_, ⟨p, hp, hon⟩, h.consumer⟩
          show (w.prod && !(!w.onRead && _)) = true
          rw [h.prod, hor]; rfl
        | cursorRead b =>
          have e : w.nv.step' K (.cursorRead b) = (w.nv, .record (.err .failedPrecondition)) := by
            dsimp only [NV.step']
            unfold NV.cursorRead
            rw [h.consumer]
          rw [e]
          refine ⟨?_, ⟨p, hp, hon⟩, h.consumer⟩
          show (w.prod && !(!w.onRead && _)) = true
          rw [h.prod, hor]; rfl
        | finishRead =>
          have e : w.nv.step' K .finishRead = (w.nv, .finished (.err .failedPrecondition)) := by
            dsimp only [NV.step']
            unfold NV.finishRead
            rw [h.consumer]
          rw [e]
          refine ⟨?_, ⟨p, hp, hon⟩, h.consumer⟩
          show (w.prod && !(if w.onRead then false else _)) = true
          rw [h.prod, hor]; rfl
        | ack =>
          have e : w.nv.step' K .ack = (w.nv, .finished (.err .failedPrecondition)) := by
            dsimp only [NV.step']
            unfold NV.ack
            rw [h.consumer]
          rw [e]
          refine ⟨?_, ⟨p, hp, hon⟩, h.consumer⟩
          show (w.prod && !(if w.onRead then false else _)) = true
          rw [h.prod, hor]; rfl
        | _ => cases m2
      | false =>
        obtain ⟨o1, o2, o3, o4⟩ := other_reads K w.nv op m1 m2 m3 (fun e => hs (by rw [e])) (fun e => hr (by rw [e]))
        have oc : (w.nv.step K op).1.consumer = w.nv.consumer := by
          rw [step_unit (Or.inr m1)]
          cases op with
          | registerProducer =>
            dsimp only [NV.step']
            split <;> rfl
          | registerConsumer => exact absurd rfl hc1
          | registerCursor => exact absurd rfl hc2
          | waitForDrain | lock | unlock | alter => rfl
          | shutdown => exact absurd rfl hs
          | restart => exact absurd rfl hr
          | resume => exact absurd rfl m3
          | dropProducer | reserve | write | commit => cases m1
          | dropConsumer | startRead | finishRead | cursorRead | ack => cases m2
        have e : w.after op (w.nv.step K op) = { w with
            nv := (w.nv.step K op).1
            prod := w.prod && !(if w.onRead then noConsumerReservation op (w.nv.step K op).2 else readComplete w.nv (w.nv.step K op).1)
            reader := w.reader && !dataAvailable w.nv (w.nv.step K op).1 op (w.nv.step K op).2
            awaits := if noProducerReservation op (w.nv.step K op).2 then 0 else w.awaits } := by
          cases op with
          | restart => exact absurd rfl hr
          | resume => exact absurd rfl m3
          | reserve => cases m1
          | startRead => cases m2
          | cursorRead => cases m2
          | _ => rfl
        rw [e]
        refine ⟨?_, ⟨p, o1.trans hp, hon⟩, oc.trans h.consumer⟩
        show (w.prod && !(if w.onRead then _ else _)) = true
        rw [h.prod, o2, o3]
        simp

theorem Left.run (K : Crc) : ∀ (ops : List WOp) (w : Wait), w.Left →
    (∀ op ∈ ops, op ≠ .call .shutdown ∧ op ≠ .call .restart ∧ op ≠ .call .registerConsumer ∧ op ≠ .call .registerCursor) → (w.run K ops).Left
  | [], _, h, _ => h
  | op :: ops, w, h, ho => Left.run K ops _ (Left.step K w h op (ho op (by simp))) (fun x hx => ho x (by simp [hx]))

/-- The producer of an overwriting buffer waits for the read of the oldest record to finish; the consumer is dropped without finishing it. -/
def droppedOps : List WOp :=
  wcalls ([.registerProducer, .registerConsumer] ++ put [1, 2, 3, 4, 5, 6, 7, 8, 9, 10, 11, 12] ++ put [1, 2, 3, 4, 5, 6, 7, 8] ++ [.startRead false, .reserve 12 true, .dropConsumer])

/-- C109 fails for the producer: the drop of the consumer does not wake it (non_volatile_ring_buffer.rs:426-438, 595-606), though the read it waited for is gone, and
while no other consumer comes it sleeps on until a shutdown or a restart. -/
theorem C109_consumer_drop_violated :
    let w := (Wait.new testCrc 32 false true true).run testCrc droppedOps
    (w.nv.resume testCrc).2 = .ok ⟨4, 12⟩ ∧ w.nv.hasRead = false ∧
    ∀ ops : List WOp, (∀ op ∈ ops, op ≠ .call .shutdown ∧ op ≠ .call .restart ∧ op ≠ .call .registerConsumer ∧ op ≠ .call .registerCursor) →
      (w.run testCrc ops).prod = true := by
  have h : ((Wait.new testCrc 32 false true true).run testCrc droppedOps).prod = true ∧
      ((Wait.new testCrc 32 false true true).run testCrc droppedOps).nv.parked.map (·.onRead) = some true ∧
      ((Wait.new testCrc 32 false true true).run testCrc droppedOps).nv.consumer = none := by decide +kernel
  refine ⟨by decide +kernel, by decide +kernel, fun ops ho => ?_⟩
  obtain ⟨p, hp, hp2⟩ := Option.map_eq_some_iff.1 h.2.1
  exact (Left.run testCrc ops _ ⟨h.1, ⟨p, hp, hp2⟩, h.2.2⟩ ho).prod

/-- C109 fails for those who wait for the reservations to end: a producer that is dropped with its reservation does not wake them (non_volatile_ring_buffer.rs:264-274). -/
theorem C109_producer_drop_violated :
    let w := (Wait.new testCrc 32 false true true).run testCrc [.call .registerProducer, .call (.reserve 5 true), .await, .call .dropProducer]
    w.awaits = 1 ∧ w.nv.producer = none := by decide +kernel

/-- The hypotheses of the theorems above are met: a producer asleep for room, woken by the acknowledgement, and one asleep for the read of the consumer; a reader asleep
and woken; somebody who waits for the reservation to end. -/
example :
    let ops : List WOp := wcalls ([.registerProducer, .registerConsumer] ++ put [1, 2, 3, 4, 5, 6, 7, 8, 9, 10, 11, 12] ++ put [1, 2, 3, 4, 5, 6, 7, 8] ++
      [.reserve 12 true])
    let w := (Wait.new testCrc 32 false false true).run testCrc ops
    let w1 := w.run testCrc [.call (.startRead true), .call .finishRead]
    let w2 := (w1.step testCrc (.call .resume)).1
    let w3 := w2.run testCrc [.await, .call (.startRead true), .call .finishRead, .call (.startRead true)]
    w.prod = true ∧ w1.prod = false ∧ (w1.nv.resume testCrc).2 = .ok ⟨4, 12⟩ ∧ w2.prod = false ∧ w3.awaits = 1 ∧ w3.reader = true ∧ w3.inside = true ∧
    (w3.run testCrc [.call .commit]).reader = false ∧ (w3.run testCrc [.call .commit]).awaits = 0 ∧
    (w3.run testCrc [.call .commit, .retry]).inside = false := by decide +kernel

example :
    let w := (Wait.new testCrc 32 false true true).run testCrc (droppedOps.take 10)
    w.prod = true ∧ w.onRead = true ∧ (w.run testCrc [.call .finishRead]).prod = false ∧ (w.run testCrc [.call .shutdown]).prod = false := by decide +kernel

instance (K : Crc) (w : Wait) (op : WOp) : Decidable (w.Fine K op) := by
  unfold Wait.Fine
  exact inferInstance

instance allFineDecidable (K : Crc) : ∀ (ops : List WOp) (w : Wait), Decidable (w.AllFine K ops)
  | [], _ => isTrue trivial
  | op :: ops, w =>
    have := allFineDecidable K ops (w.step K op).1
    inferInstanceAs (Decidable (_ ∧ _))

/-- `AllFine` is met by such a history. -/
example : (Wait.new testCrc 32 false true true).AllFine testCrc (droppedOps.take 10 ++ [.call .finishRead]) := by decide +kernel

/-! ### The volatile buffer -/

theorem popCommitted_readable : ∀ (l : List Resv) (c : Core), c.stats.recordsWritten ≤ (popCommitted c l).1.stats.recordsWritten ∧
    ((popCommitted c l).1.stats.recordsWritten = c.stats.recordsWritten → (popCommitted c l).1 = c)
  | [], _ => ⟨Nat.le_refl _, fun _ => rfl⟩
  | r :: rest, c => by
    unfold popCommitted
    split
    · obtain ⟨h1, -⟩ := popCommitted_readable rest (c.advanceCommitted r.range)
      have : (c.advanceCommitted r.range).stats.recordsWritten = c.stats.recordsWritten + 1 := rfl
      exact ⟨by omega, fun h => by omega⟩
    · exact ⟨Nat.le_refl _, fun _ => rfl⟩

theorem popCommitted_shutdown : ∀ (l : List Resv) (c : Core), (popCommitted c l).1.shutdown = c.shutdown
  | [], _ => rfl
  | r :: rest, c => by
    unfold popCommitted
    split
    · exact popCommitted_shutdown rest _
    · rfl

structure VWait.VInv (w : VWait) : Prop where
  reader : w.reader = true → w.inside = true ∧ w.vol.core.shutdown = false ∧ w.vol.core.nrs = none
  awaits : w.awaits ≠ 0 → w.vol.resv ≠ []

theorem volReserve_dry (v : Vol) (p size : Nat) : (v.core.nrs = none → (v.reserve p size).1.core.nrs = none) ∧
    (v.reserve p size).1.core.shutdown = v.core.shutdown ∧ (v.resv ≠ [] → (v.reserve p size).1.resv ≠ []) := by
  unfold Vol.reserve
  split
  · exact ⟨id, rfl, id⟩
  · obtain ⟨h1, h2, h3⟩ := startReserve_none v.core size
    split
    · rename_i c e heq
      rw [heq] at h1 h2 h3
      exact ⟨h1.trans, h3, id⟩
    · rename_i c actual heq
      rw [heq] at h1 h2 h3
      dsimp only at h1 h2 h3 ⊢
      split
      · exact ⟨h1.trans, h3, id⟩
      · split
        · exact ⟨h1.trans, h3, id⟩
        · have a1 := (advanceForWrite_none (v.hasRead || v.hasWrite) (c.calcNextWriteStart actual) true c.advanceFuel c).1
          have a2 : (c.advanceForWrite (v.hasRead || v.hasWrite) (c.calcNextWriteStart actual) true c.advanceFuel).1.shutdown = c.shutdown :=
            congrArg (fun f => f.2.2.2.2) (fixed_advanceForWrite (v.hasRead || v.hasWrite) (c.calcNextWriteStart actual) true c.advanceFuel c)
          split
          · rename_i c' heq'
            rw [heq'] at a1 a2
            have b2 : (c'.applyReservation (c.calcNextWriteStart actual) size).shutdown = c'.shutdown :=
              congrArg (fun f => f.2.2.2.2) (fixed_applyReservation c' (c.calcNextWriteStart actual) size)
            exact ⟨fun h => (applyReservation_none c' _ size).1.trans (a1 (h1.trans h)), b2.trans (a2.trans h3), fun _ => by simp⟩
          · rename_i c' e heq'
            rw [heq'] at a1 a2
            exact ⟨fun h => a1 (h1.trans h), a2.trans h3, id⟩
          · rename_i c' heq'
            rw [heq'] at a1 a2
            exact ⟨fun h => a1 (h1.trans h), a2.trans h3, id⟩

theorem volStartRead_dry {v : Vol} {b : Bool} (h : (v.startRead b).2 = .blocked) : (v.startRead b).1.core.shutdown = false ∧ (v.startRead b).1.core.nrs = none := by
  unfold Vol.startRead at h ⊢
  split at h
  · cases h
  · rename_i res hc
    have hb := startRead_blocked (c := v.core) (busy := v.hasRead || v.hasWrite) (block := b) (q := res)
    split at h
    · cases h
    · cases h
    · rename_i c heq
      rw [heq] at hb
      exact ⟨(hb rfl).2, (hb rfl).1⟩

theorem volStartRead_resv (v : Vol) (b : Bool) : (v.startRead b).1.resv = v.resv := by
  unfold Vol.startRead
  split
  · rfl
  · split <;> rfl

theorem record_blocks {r : Res (Range × List UInt8)} (h : (Out.record r).blocks = true) : r = .blocked := by
  cases r with
  | blocked => rfl
  | ok x => cases h
  | err e => cases h

theorem volReaderResume_dry {v : Vol} (h : v.readerResume.2.blocks = true) : v.readerResume.1.core.shutdown = false ∧ v.readerResume.1.core.nrs = none := by
  unfold Vol.readerResume at h ⊢
  split at h
  · cases h
  · rename_i hs
    rw [if_neg hs]
    split at h
    · rename_i hn
      rw [if_pos hn]
      exact ⟨by simpa using hs, by simpa using hn⟩
    · rename_i hn
      rw [if_neg hn]
      exact volStartRead_dry (v := v) (b := true) (record_blocks h)

theorem volReaderResume_resv (v : Vol) : v.readerResume.1.resv = v.resv := by
  unfold Vol.readerResume
  split
  · rfl
  · split
    · rfl
    · exact volStartRead_resv v true

theorem volCommit_res (v : Vol) (p : Nat) : ((v.commit p).1 = v ∧ ∃ e, (v.commit p).2 = .err e) ∨
    (v.commit p).2 = .ok () ∧ (v.commit p).1.core = (popCommitted { v.core with readable := true } (markCommitted p v.resv)).1 := by
  unfold Vol.commit
  split
  · exact Or.inl ⟨rfl, _, rfl⟩
  · exact Or.inr ⟨rfl, rfl⟩

theorem VWInv.step (w : VWait) (h : w.VInv) (op : VWOp) : (w.step op).1.VInv := by
  cases op with
  | await =>
    unfold VWait.step
    dsimp only
    split
    · rename_i hw
      refine ⟨h.reader, fun _ e => ?_⟩
      unfold Vol.hasWrite at hw
      rw [show w.vol.resv = [] from e] at hw
      cases hw
    · exact h
  | retry =>
    unfold VWait.step
    dsimp only
    split
    · refine ⟨fun hb => ⟨hb, volReaderResume_dry hb⟩, fun ha => ?_⟩
      show w.vol.readerResume.1.resv ≠ []
      rw [volReaderResume_resv]
      exact h.awaits ha
    · exact h
  | call op =>
    unfold VWait.step
    dsimp only
    split
    · exact h
    · rename_i hno
      simp only [not_and] at hno
      have other : ∀ (v' : Vol) (o : Out) (op : Op), noReservations v' op o = false → (w.reader = true → volDataAvailable w.vol v' op = false →
          v'.core.shutdown = false ∧ v'.core.nrs = none) → (w.vol.resv ≠ [] → v'.resv ≠ []) → (∀ b, op ≠ .startRead b) → (w.after op (v', o)).VInv := by
        intro v' o op h0 h1 h2 h3
        have e : w.after op (v', o) = { w with
            vol := v'
            reader := w.reader && !volDataAvailable w.vol v' op
            awaits := if noReservations v' op o then 0 else w.awaits } := by
          cases op with
          | startRead b => exact absurd rfl (h3 b)
          | _ => rfl
        rw [e]
        constructor
        · intro hb
          obtain ⟨b1, b2⟩ := Bool.and_eq_true_iff.1 hb
          exact ⟨(h.reader b1).1, h1 b1 (by simpa using b2)⟩
        · intro ha
          rw [if_neg (by simp [h0])] at ha
          exact h2 (h.awaits ha)
      have hr2 : w.reader = true → w.vol.core.shutdown = false ∧ w.vol.core.nrs = none := fun b => (h.reader b).2
      cases op with
      | reserve p size =>
        obtain ⟨a1, a2, a3⟩ := volReserve_dry w.vol p size
        exact other (w.vol.reserve p size).1 (.slice (w.vol.reserve p size).2) (.reserve p size) rfl (fun b _ => ⟨a2.trans (hr2 b).1, a1 (hr2 b).2⟩) a3 nofun
      | write p off bytes =>
        have hw : (w.vol.write p off bytes).1.core.shutdown = w.vol.core.shutdown ∧ (w.vol.write p off bytes).1.core.nrs = w.vol.core.nrs ∧
            (w.vol.write p off bytes).1.resv = w.vol.resv := by
          unfold Vol.write
          split
          · exact ⟨rfl, rfl, rfl⟩
          · split <;> exact ⟨rfl, rfl, rfl⟩
        exact other (w.vol.write p off bytes).1 (.unit (w.vol.write p off bytes).2) (.write p off bytes) rfl
          (fun b _ => ⟨hw.1.trans (hr2 b).1, hw.2.1.trans (hr2 b).2⟩) (fun a => by rw [hw.2.2]; exact a) nofun
      | commit p =>
        rcases volCommit_res w.vol p with ⟨e, x, e2⟩ | ⟨e, e2⟩
        · show (w.after (.commit p) ((w.vol.commit p).1, .unit (w.vol.commit p).2)).VInv
          rw [e, e2]
          exact other w.vol (.unit (.err x)) (.commit p) rfl (fun b _ => hr2 b) id nofun
        · show (w.after (.commit p) ((w.vol.commit p).1, .unit (w.vol.commit p).2)).VInv
          rw [e]
          constructor
          · intro hb
            obtain ⟨b1, b2⟩ := Bool.and_eq_true_iff.1 hb
            refine ⟨(h.reader b1).1, ?_⟩
            show (w.vol.commit p).1.core.shutdown = false ∧ (w.vol.commit p).1.core.nrs = none
            obtain ⟨r1, r2⟩ := hr2 b1
            rw [e2]
            have hs := popCommitted_shutdown (markCommitted p w.vol.resv) { w.vol.core with readable := true }
            refine ⟨hs.trans r1, ?_⟩
            change (!((w.vol.commit p).1.core.stats.recordsWritten != w.vol.core.stats.recordsWritten && (w.vol.core.nrs.isNone || w.vol.core.ncrs.isNone))) = true at b2
            rw [e2, r2] at b2
            rw [(popCommitted_readable (markCommitted p w.vol.resv) { w.vol.core with readable := true }).2 (by simpa using b2)]
            exact r2
          · intro ha
            change (if (w.vol.commit p).1.resv.isEmpty then 0 else w.awaits) ≠ 0 at ha
            show (w.vol.commit p).1.resv ≠ []
            intro hx
            rw [hx] at ha
            exact ha rfl
      | registerConsumer =>
        have hw : (w.vol.registerConsumer).1.core = w.vol.core ∧ (w.vol.registerConsumer).1.resv = w.vol.resv := by
          unfold Vol.registerConsumer
          split <;> exact ⟨rfl, rfl⟩
        exact other (w.vol.registerConsumer).1 (.unit (w.vol.registerConsumer).2) (.registerConsumer) rfl (fun b _ => by rw [hw.1]; exact hr2 b)
          (fun a => by rw [hw.2]; exact a) nofun
      | dropConsumer => exact other w.vol.dropConsumer (.unit (.ok ())) (.dropConsumer) rfl (fun b _ => hr2 b) id nofun
      | startRead b =>
        constructor
        · intro hb
          exact ⟨hb, volStartRead_dry (v := w.vol) (b := b) (record_blocks hb)⟩
        · intro ha
          show (w.vol.startRead b).1.resv ≠ []
          rw [volStartRead_resv]
          exact h.awaits ha
      | finishRead =>
        have hw : (w.vol.finishRead).1.resv = w.vol.resv := by
          unfold Vol.finishRead
          split <;> rfl
        exact other (w.vol.finishRead).1 (.finished (w.vol.finishRead).2) (.finishRead) rfl (fun b _ => absurd rfl (hno (h.reader b).1)) (fun a => by rw [hw]; exact a) nofun
      | waitForDrain =>
        have hw : (w.vol.core.waitForDrain w.vol.hasRead).1.shutdown = w.vol.core.shutdown ∧ (w.vol.core.waitForDrain w.vol.hasRead).1.nrs = w.vol.core.nrs := by
          unfold Core.waitForDrain
          split <;> exact ⟨rfl, rfl⟩
        exact other { w.vol with core := (w.vol.core.waitForDrain w.vol.hasRead).1 } (.drain (w.vol.core.waitForDrain w.vol.hasRead).2) (.waitForDrain) rfl
          (fun b _ => ⟨hw.1.trans (hr2 b).1, hw.2.trans (hr2 b).2⟩) id nofun
      | lock => exact other { w.vol with core := { w.vol.core with lockCount := w.vol.core.lockCount + 1 } } (.unit (.ok ())) (.lock) rfl (fun b _ => hr2 b) id nofun
      | unlock => exact other { w.vol with core := { w.vol.core with lockCount := w.vol.core.lockCount - 1 } } (.unit (.ok ())) (.unlock) rfl (fun b _ => hr2 b) id nofun
      | shutdown =>
        refine other { w.vol with core := w.vol.core.doShutdown } (.unit (.ok ())) (.shutdown) rfl (fun b hd => ?_) id nofun
        simp [volDataAvailable, Core.doShutdown, (hr2 b).1] at hd

theorem VWInv.run : ∀ (ops : List VWOp) (w : VWait), w.VInv → (w.run ops).VInv
  | [], _, h => h
  | op :: ops, w, h => VWInv.run ops _ (VWInv.step w h op)

/-- C109 for the volatile buffer: a consumer asleep in a blocking read has nothing to read and there is no shutdown; while somebody sleeps in
`await_reservations_drained` there is a reservation that is not committed or not yet at its turn. -/
theorem C109_volatile (len : Nat) (mem : Mem) (ops : List VWOp) :
    let w := (VWait.new len mem).run ops
    (w.reader = true → w.vol.core.shutdown = false ∧ w.vol.core.nrs = none) ∧ (w.awaits ≠ 0 → w.vol.resv ≠ []) := by
  have := VWInv.run ops (VWait.new len mem) ⟨nofun, fun h => absurd rfl h⟩
  exact ⟨fun h => (this.reader h).2, this.awaits⟩

example :
    let w := (VWait.new 64 fun _ => 0).run [.call .registerConsumer, .call (.startRead true), .call (.reserve 1 5), .call (.reserve 2 6), .await, .call (.commit 2)]
    w.reader = true ∧ w.awaits = 1 ∧ (w.run [.call (.commit 1)]).reader = false ∧ (w.run [.call (.commit 1)]).awaits = 0 ∧
    (w.run [.call (.commit 1), .retry]).inside = false := by decide +kernel

/-! ### C110: asynchronous reads -/

/-- A total data loss reset is pending and the consumer, inside `read`, has reads it did not acknowledge. -/
structure Spin (s : NV) : Prop where
  pend : s.core.pendingReset = true
  readable : s.core.readable = true
  reads : ∃ r rs, s.consumer = some (.cursor (r :: rs))

theorem Spin.read (K : Crc) {s : NV} (h : Spin s) : s.cursorRead K false = (s, .err .unavailable) := by
  obtain ⟨r, rs, hc⟩ := h.reads
  have e : s.cursorLoop K (r :: rs) false s.core.advanceFuel = (s, .err .unavailable) := by
    rw [show s.core.advanceFuel = (2 * s.core.len + 3) + 1 from rfl]
    unfold NV.cursorLoop
    have : s.core.startReadCursor (s.hasRead || s.hasWrite) false = (s.core, .err .unavailable) := by
      unfold Core.startReadCursor
      rw [if_pos h.pend]
    rw [this]
    show (s.withCore K s.core, _) = _
    unfold NV.withCore
    rw [if_neg (by simp)]
  unfold NV.cursorRead
  rw [hc]
  dsimp only
  rw [e]

theorem Spin.async (K : Crc) {s : NV} (h : Spin s) : ∀ fuel, s.asyncRead K fuel = (s, none, false)
  | 0 => rfl
  | fuel + 1 => by
    unfold NV.asyncRead
    rw [if_pos h.readable, h.read K]
    exact Spin.async K h fuel

theorem takeSpace_spin (K : Crc) (s : NV) (t : Temp) (size : Nat) (block : Bool) (h : Spin s) : Spin (s.takeSpace K t size block).1 := by
  obtain ⟨r, rs, hc⟩ := h.reads
  have hr : s.hasRead = true := by
    unfold NV.hasRead
    rw [hc]
    rfl
  have key : ∀ (fuel : Nat) (c : Core), c.pendingReset = true → c.readable = true →
      (c.advanceForWrite (s.hasRead || s.hasWrite) t block fuel).1.pendingReset = true ∧ (c.advanceForWrite (s.hasRead || s.hasWrite) t block fuel).1.readable = true := by
    intro fuel
    induction fuel with
    | zero => exact fun c a b => ⟨a, b⟩
    | succ fuel ih =>
      intro c a b
      unfold Core.advanceForWrite
      split
      · exact ⟨a, b⟩
      · split
        · rw [hr]
          exact ⟨rfl, b⟩
        · split
          · split
            · split
              · exact ⟨a, b⟩
              · split <;> exact ⟨a, b⟩
            · have hA : ∀ (c : Core) (n : Nat), (c.advanceRead n).pendingReset = c.pendingReset ∧ (c.advanceRead n).readable = c.readable := by
                intro c n
                unfold Core.advanceRead
                split
                · split
                  · split <;> exact ⟨rfl, rfl⟩
                  · exact ⟨rfl, rfl⟩
                · exact ⟨rfl, rfl⟩
              exact ih _ ((hA _ _).1.trans a) ((hA _ _).2.trans b)
          · exact ⟨a, b⟩
  have k := key s.core.advanceFuel s.core h.pend h.readable
  unfold NV.takeSpace
  split
  · rename_i c heq
    rw [heq] at k
    have ha : (c.applyReservation t size).pendingReset = c.pendingReset ∧ (c.applyReservation t size).readable = c.readable := by
      unfold Core.applyReservation
      dsimp only
      rw [finishReservation_eq]
      exact ⟨rfl, rfl⟩
    exact ⟨ha.1.trans k.1, ha.2.trans k.2, r, rs, hc⟩
  · rename_i c e heq
    rw [heq] at k
    obtain ⟨w1, -, -, -, w2⟩ := withCore_core K s c
    exact ⟨(congrArg Core.pendingReset w1).trans k.1, (congrArg Core.readable w1).trans k.2, r, rs, w2.trans hc⟩
  · rename_i c heq
    rw [heq] at k
    exact ⟨k.1, k.2, r, rs, hc⟩

theorem passReader_spin (K : Crc) (s : NV) (t : Temp) (size : Nat) (block : Bool) (h : Spin s) : Spin (s.passReader K t size block).1 := by
  unfold NV.passReader
  split
  · split <;> exact ⟨h.pend, h.readable, h.reads⟩
  · exact takeSpace_spin K s t size block h

/-- Nobody but the consumer gets it out of there. -/
theorem Spin.step (K : Crc) {s : NV} (h : Spin s) (op : NOp) (hc : op.usesConsumer = false) (hr : op ≠ .restart) : Spin (s.step K op).1 := by
  obtain ⟨r, rs, hcon⟩ := h.reads
  have hread : s.hasRead = true := by
    unfold NV.hasRead
    rw [hcon]
    rfl
  unfold NV.step
  split
  · exact h
  · cases op with
    | registerProducer =>
      dsimp only [NV.step']
      split <;> exact ⟨h.pend, h.readable, h.reads⟩
    | dropProducer => exact ⟨h.pend, h.readable, h.reads⟩
    | reserve size block =>
      show Spin (s.reserve K size block).1
      unfold NV.reserve
      split
      · exact h
      · exact h
      · unfold Core.startReserve
        split
        · rename_i c e heq
          have : c.pendingReset = s.core.pendingReset ∧ c.readable = s.core.readable := by
            split at heq
            · cases heq; exact ⟨rfl, rfl⟩
            · split at heq
              · cases heq; exact ⟨rfl, rfl⟩
              · split at heq
                · cases heq; exact ⟨rfl, rfl⟩
                · cases heq
          exact ⟨this.1.trans h.pend, this.2.trans h.readable, h.reads⟩
        · rename_i c a heq
          have : c = s.core := by
            split at heq
            · cases heq
            · split at heq
              · cases heq
              · split at heq
                · cases heq
                · cases heq; rfl
          subst this
          exact passReader_spin K _ _ _ _ h
    | resume =>
      show Spin (s.resume K).1
      unfold NV.resume
      split
      · exact h
      · split
        · exact ⟨h.pend, h.readable, h.reads⟩
        · split
          · exact passReader_spin K _ _ _ _ h
          · exact takeSpace_spin K _ _ _ _ h
    | write off bytes =>
      show Spin (s.write off bytes).1
      unfold NV.write
      split
      · split
        · exact ⟨h.pend, h.readable, h.reads⟩
        · exact h
      · exact h
    | commit =>
      show Spin (s.commit K).1
      unfold NV.commit
      split
      · dsimp only
        rw [hread]
        have hm : ∀ c : Core, c.maybeReset true = c := fun c => by unfold Core.maybeReset; rw [if_neg (by simp)]
        rw [hm]
        have hw : ∀ (c : Core) (b : Bool) (q : Range), (c.writeCrc K b q).pendingReset = c.pendingReset ∧ (c.writeCrc K b q).readable = c.readable := by
          intro c b q
          unfold Core.writeCrc
          split <;> exact ⟨rfl, rfl⟩
        exact ⟨(hw _ _ _).1.trans h.pend, (hw _ _ _).2, r, rs, hcon⟩
      · exact h
      · exact h
    | registerConsumer =>
      dsimp only [NV.step']
      rw [hcon]
      exact h
    | registerCursor =>
      dsimp only [NV.step']
      rw [hcon]
      exact h
    | dropConsumer | startRead | finishRead | cursorRead | ack => cases hc
    | waitForDrain =>
      show Spin { s with core := (s.core.waitForDrain s.hasRead).1 }
      unfold Core.waitForDrain
      split
      · exact ⟨h.pend, h.readable, h.reads⟩
      · exact h
    | lock => exact ⟨h.pend, h.readable, h.reads⟩
    | unlock => exact ⟨h.pend, h.readable, h.reads⟩
    | shutdown =>
      show Spin { s with core := s.core.doShutdown }
      unfold Core.doShutdown
      split
      · exact h
      · exact ⟨h.pend, h.readable, h.reads⟩
    | alter a b => exact ⟨h.pend, h.readable, h.reads⟩
    | restart => exact absurd rfl hr

theorem Spin.run (K : Crc) : ∀ (ops : List NOp) (s : NV), Spin s → (∀ op ∈ ops, op.usesConsumer = false ∧ op ≠ .restart) → Spin (s.run K ops).1
  | [], _, h, _ => h
  | op :: ops, s, h, ho => Spin.run K ops _ (h.step K op (ho op (by simp)).1 (ho op (by simp)).2) (fun x hx => ho x (by simp [hx]))

/-- The second record's size is destroyed after the first was read. -/
def spinOps : List NOp := [.registerProducer, .registerCursor] ++ put [1, 2, 3] ++ put [4, 5] ++ [.cursorRead false, .alter 7 0]

/-- C110 fails: the asynchronous read finds the loss, cannot reset the buffer because of the read it did not acknowledge, and goes round without ever waiting or
returning, whatever the others do meanwhile, a shutdown included. -/
theorem C110_spin_violated :
    let s := ((NV.new testCrc 64 false false true).run testCrc spinOps).1
    ∀ (ops : List NOp) (fuel : Nat), (∀ op ∈ ops, op.usesConsumer = false ∧ op ≠ .restart) →
      let s' := ((s.cursorRead testCrc false).1.run testCrc ops).1
      (s.cursorRead testCrc false).2 = .err .unavailable ∧ (s'.asyncRead testCrc fuel).2 = (none, false) := by
  intro s ops fuel ho
  have h : (s.cursorRead testCrc false).1.core.pendingReset = true ∧ (s.cursorRead testCrc false).1.core.readable = true ∧
      (s.cursorRead testCrc false).1.consumer = some (.cursor [⟨0, 7⟩]) ∧ (s.cursorRead testCrc false).2 = .err .unavailable := by decide +kernel
  refine ⟨h.2.2.2, ?_⟩
  rw [Spin.async testCrc (Spin.run testCrc ops _ ⟨h.1, h.2.1, _, _, h.2.2.1⟩ ho)]

theorem startReadCursor_unavailable {c : Core} {busy : Bool} (h : (c.startReadCursor busy false).2 = .err .unavailable)
    (hp : (c.startReadCursor busy false).1.pendingReset = false) :
    (c.startReadCursor busy false).1.readable = false ∧ (c.startReadCursor busy false).1.ncrs = none := by
  cases hq : c.pendingReset with
  | true =>
    have e : c.startReadCursor busy false = (c, .err .unavailable) := by
      unfold Core.startReadCursor
      rw [if_pos hq]
    rw [e] at hp
    exact absurd (hq.symm.trans hp) (by decide)
  | false =>
    cases hn : c.ncrs with
    | none =>
      have e : c.startReadCursor busy false = ({ c with readable := false }, .err .unavailable) := by
        unfold Core.startReadCursor
        rw [if_neg (by simp [hq]), hn]
        simp [hn]
      rw [e]
      exact ⟨rfl, hn⟩
    | some n =>
      cases hs : c.loadSize n with
      | some sz =>
        have e : c.startReadCursor busy false = (c.advanceCursor (sz + c.xb), .ok ⟨n, sz + c.xb⟩) := by
          unfold Core.startReadCursor
          rw [if_neg (by simp [hq]), hn]
          dsimp only
          rw [hs]
        rw [e] at h
        cases h
      | none =>
        cases busy with
        | true =>
          have e : c.startReadCursor true false = (c.onTotalDataLoss true, .err .unavailable) := by
            unfold Core.startReadCursor
            rw [if_neg (by simp [hq]), hn]
            dsimp only
            rw [hs]
            rfl
          rw [e] at hp
          cases hp
        | false =>
          have e : c.startReadCursor false false = ({ c.onTotalDataLoss false with readable := false }, .err .unavailable) := by
            unfold Core.startReadCursor
            rw [if_neg (by simp [hq]), hn]
            dsimp only
            rw [hs]
            dsimp only
            rw [if_neg (by simp [Core.onTotalDataLoss, Core.totalReset, hq])]
            rfl
          rw [e]
          exact ⟨rfl, rfl⟩

theorem cursorLoop_unavailable (K : Crc) (rs : List Range) : ∀ (fuel : Nat) (s : NV), (s.cursorLoop K rs false fuel).2 = .err .unavailable →
    (s.cursorLoop K rs false fuel).1.core.pendingReset = false →
    (s.cursorLoop K rs false fuel).1.core.readable = false ∧ (s.cursorLoop K rs false fuel).1.core.ncrs = none
  | 0, _, h, _ => by cases h
  | fuel + 1, s, h, hp => by
    have hb := startReadCursor_unavailable (c := s.core) (busy := s.hasRead || s.hasWrite)
    unfold NV.cursorLoop at h hp ⊢
    cases hq : s.core.startReadCursor (s.hasRead || s.hasWrite) false with
    | mk c r =>
      rw [hq] at h hp hb
      cases r with
      | ok r =>
        dsimp only at h hp ⊢
        split at h
        · rename_i hc
          rw [if_pos hc] at hp ⊢
          exact cursorLoop_unavailable K rs fuel _ h hp
        · cases h
      | err e =>
        dsimp only at h hp ⊢
        rw [(withCore_core K s c).1] at hp ⊢
        refine hb ?_ hp
        cases h
        rfl
      | blocked => cases h

theorem cursorRead_loop {K : Crc} {s : NV} {b : Bool} {rs : List Range} (hc : s.consumer = some (.cursor rs)) :
    (s.cursorRead K b).1 = (s.cursorLoop K rs b s.core.advanceFuel).1 ∧
      ((s.cursorRead K b).2 = .err .unavailable → (s.cursorLoop K rs b s.core.advanceFuel).2 = .err .unavailable) := by
  unfold NV.cursorRead
  rw [hc]
  dsimp only
  cases s.cursorLoop K rs b s.core.advanceFuel with
  | mk s' r =>
    cases r with
    | ok r => exact ⟨rfl, nofun⟩
    | err e => exact ⟨rfl, fun h => by cases h; rfl⟩
    | blocked => exact ⟨rfl, nofun⟩

theorem cursorRead_unavailable {K : Crc} {s : NV} (h : (s.cursorRead K false).2 = .err .unavailable) (hp : (s.cursorRead K false).1.core.pendingReset = false) :
    (s.cursorRead K false).1.core.readable = false ∧ (s.cursorRead K false).1.core.ncrs = none := by
  rcases hc : s.consumer with _ | r | rs
  · unfold NV.cursorRead at h
    rw [hc] at h
    cases h
  · unfold NV.cursorRead at h
    rw [hc] at h
    cases h
  · obtain ⟨e1, e2⟩ := cursorRead_loop (K := K) (b := false) hc
    rw [e1] at hp ⊢
    exact cursorLoop_unavailable K rs _ s (e2 h) hp

/-- C110 when the reset after a loss is not pending: the read ends after at most two rounds, with a result or waiting. -/
theorem C110_waits_partial (K : Crc) (s : NV) (hp : s.core.readable = true → (s.cursorRead K false).1.core.pendingReset = false) (fuel : Nat) :
    (s.asyncRead K (fuel + 2)).2.2 = true := by
  rw [show fuel + 2 = (fuel + 1) + 1 from rfl]
  unfold NV.asyncRead
  split
  · rename_i hr
    split
    · rename_i hu
      obtain ⟨h1, -⟩ := cursorRead_unavailable hu (hp hr)
      unfold NV.asyncRead
      rw [if_neg (by simp [h1])]
    · rfl
  · rfl

/-- Nothing is there to read for a cursor while the buffer is marked as not readable. -/
def Marked (s : NV) : Prop := s.core.readable = false → s.core.ncrs = none

theorem asyncRead_waits {K : Crc} : ∀ (fuel : Nat) (s : NV), (s.asyncRead K fuel).2 = (none, true) → (s.asyncRead K fuel).1.core.readable = false
  | 0, _, h => by cases h
  | fuel + 1, s, h => by
    unfold NV.asyncRead at h ⊢
    split at h
    · rename_i hr
      rw [if_pos hr]
      split at h
      · exact asyncRead_waits fuel _ h
      · cases h
    · rename_i hr
      rw [if_neg hr]
      simpa using hr

theorem startReadCursor_marked {c : Core} {busy block : Bool} (h : c.readable = false → c.ncrs = none) :
    (c.startReadCursor busy block).1.readable = false → (c.startReadCursor busy block).1.ncrs = none := by
  unfold Core.startReadCursor
  split
  · exact h
  · dsimp only
    split
    · rename_i hn
      split
      · split <;> exact fun _ => hn
      · exact fun _ => hn
    · rename_i n hn
      split
      · intro hr
        have : ∀ (c : Core) (k : Nat), (c.advanceCursor k).readable = c.readable := by
          intro c k
          unfold Core.advanceCursor
          split
          · split
            · split <;> rfl
            · rfl
          · rfl
        rw [this] at hr
        rw [h hr] at hn
        cases hn
      · cases busy with
        | true =>
          rw [if_pos (by simp [Core.onTotalDataLoss])]
          exact h
        | false =>
          split
          · exact fun _ => rfl
          · split
            · split <;> exact fun _ => rfl
            · exact fun _ => rfl

theorem cursorLoop_marked (K : Crc) (rs : List Range) (block : Bool) : ∀ (fuel : Nat) (s : NV), Marked s → Marked (s.cursorLoop K rs block fuel).1
  | 0, _, h => h
  | fuel + 1, s, h => by
    have hb := startReadCursor_marked (c := s.core) (busy := s.hasRead || s.hasWrite) (block := block) h
    unfold NV.cursorLoop
    cases hq : s.core.startReadCursor (s.hasRead || s.hasWrite) block with
    | mk c r =>
      rw [hq] at hb
      cases r with
      | ok r =>
        dsimp only
        split
        · exact cursorLoop_marked K rs block fuel _ hb
        · exact hb
      | err e =>
        dsimp only
        unfold Marked
        rw [(withCore_core K s c).1]
        exact hb
      | blocked =>
        dsimp only
        unfold Marked
        rw [(withCore_core K s c).1]
        exact hb

theorem advanceRead_readable (c : Core) (n : Nat) : (c.advanceRead n).readable = c.readable := by
  unfold Core.advanceRead
  split
  · split
    · split <;> rfl
    · rfl
  · rfl

theorem advanceForWrite_readable (busy : Bool) (t : Temp) (block : Bool) : ∀ (fuel : Nat) (c : Core), (c.advanceForWrite busy t block fuel).1.readable = c.readable
  | 0, _ => rfl
  | fuel + 1, c => by
    unfold Core.advanceForWrite
    split
    · rfl
    · split
      · show (c.onTotalDataLoss busy).readable = _
        unfold Core.onTotalDataLoss
        split <;> rfl
      · split
        · split
          · split
            · rfl
            · split <;> rfl
          · exact (advanceForWrite_readable busy t block fuel _).trans (advanceRead_readable _ _)
        · rfl

theorem takeSpace_readable (K : Crc) (s : NV) (t : Temp) (size : Nat) (block : Bool) : (s.takeSpace K t size block).1.core.readable = s.core.readable := by
  have hf := advanceForWrite_readable (s.hasRead || s.hasWrite) t block s.core.advanceFuel s.core
  unfold NV.takeSpace
  split
  · rename_i c heq
    rw [heq] at hf
    refine Eq.trans ?_ hf
    show (c.applyReservation t size).readable = c.readable
    unfold Core.applyReservation
    dsimp only
    rw [finishReservation_eq]
  · rename_i c e heq
    rw [heq] at hf
    exact (congrArg Core.readable (withCore_core K s c).1).trans hf
  · rename_i c heq
    rw [heq] at hf
    exact hf

theorem passReader_readable (K : Crc) (s : NV) (t : Temp) (size : Nat) (block : Bool) : (s.passReader K t size block).1.core.readable = s.core.readable := by
  unfold NV.passReader
  split
  · split <;> rfl
  · exact takeSpace_readable K s t size block

theorem startReserve_readable (c : Core) (n : Nat) : (c.startReserve n).1.readable = c.readable := by
  unfold Core.startReserve
  split
  · rfl
  · split
    · rfl
    · split <;> rfl

theorem reserve_readable (K : Crc) (s : NV) (size : Nat) (block : Bool) : (s.reserve K size block).1.core.readable = s.core.readable := by
  unfold NV.reserve
  split
  · rfl
  · rfl
  · have hf := startReserve_readable s.core size
    split
    · rename_i c e heq
      rw [heq] at hf
      exact hf
    · rename_i c a heq
      rw [heq] at hf
      exact (passReader_readable K _ _ _ _).trans hf

theorem resume_readable (K : Crc) (s : NV) : (s.resume K).1.core.readable = s.core.readable := by
  unfold NV.resume
  split
  · rfl
  · split
    · rfl
    · split
      · exact passReader_readable K _ _ _ _
      · exact takeSpace_readable K _ _ _ _

theorem finishRead_marked (c : Core) (busy : Bool) (r : Range) (h : c.readable = false → c.ncrs = none) :
    (c.finishRead busy r).1.readable = false → (c.finishRead busy r).1.ncrs = none := by
  have hm : ∀ c : Core, (c.readable = false → c.ncrs = none) → (c.maybeReset busy).readable = false → (c.maybeReset busy).ncrs = none := by
    intro c hc
    unfold Core.maybeReset
    split
    · exact fun _ => rfl
    · exact hc
  have ha : (c.advanceRead r.size).readable = false → (c.advanceRead r.size).ncrs = none := by
    rw [advanceRead_readable, advanceRead_none]
    exact h
  unfold Core.finishRead
  dsimp only
  refine hm _ ?_
  split <;> exact ha

theorem Marked.step (K : Crc) {s : NV} (h : Marked s) (op : NOp) (hop : ∀ b, op ≠ .startRead b) : Marked (s.step K op).1 := by
  unfold NV.step
  split
  · exact h
  · cases op with
    | registerProducer =>
      dsimp only [NV.step']
      split <;> exact h
    | dropProducer => exact h
    | reserve size block => exact fun hr => (reserve_quiet K s size block).ncrs (h ((reserve_readable K s size block).symm.trans hr))
    | resume => exact fun hr => (resume_quiet K s).ncrs (h ((resume_readable K s).symm.trans hr))
    | write off bytes =>
      show Marked (s.write off bytes).1
      unfold NV.write
      split
      · split <;> exact h
      · exact h
    | commit =>
      show Marked (s.commit K).1
      unfold NV.commit
      split
      · intro hr
        exfalso
        have hm : ∀ (c : Core) (b : Bool), (c.maybeReset b).readable = c.readable := by
          intro c b
          unfold Core.maybeReset
          split <;> rfl
        have hw : ∀ (c : Core) (b : Bool) (q : Range), (c.writeCrc K b q).readable = c.readable := by
          intro c b q
          unfold Core.writeCrc
          split <;> rfl
        have := ((hm _ _).trans (hw _ _ _)).symm.trans hr
        cases this
      · exact h
      · exact h
    | registerConsumer =>
      dsimp only [NV.step']
      split <;> exact h
    | registerCursor =>
      dsimp only [NV.step']
      split
      · exact h
      · split <;> exact h
    | dropConsumer => exact h
    | startRead b => exact absurd rfl (hop b)
    | finishRead =>
      show Marked (s.finishRead K).1
      unfold NV.finishRead
      split
      · exact finishRead_marked _ _ _ h
      · exact h
      · exact h
    | cursorRead b =>
      show Marked (s.cursorRead K b).1
      rcases cursorRead_core s K b with e | ⟨rs, -, e⟩
      · rw [e]; exact h
      · rw [e]; exact cursorLoop_marked K rs b _ s h
    | ack =>
      show Marked (s.ack K).1
      unfold NV.ack
      split
      · exact finishRead_marked _ _ _ h
      · exact h
    | waitForDrain =>
      show Marked { s with core := (s.core.waitForDrain s.hasRead).1 }
      unfold Core.waitForDrain
      split <;> exact h
    | lock => exact h
    | unlock => exact h
    | shutdown =>
      show Marked { s with core := s.core.doShutdown }
      unfold Core.doShutdown
      split <;> exact h
    | alter a b => exact h
    | restart =>
      dsimp only [NV.step']
      unfold NV.reopen
      split
      · rename_i heq
        split at heq
        · cases heq
        · cases heq
          exact nofun
      · exact h

theorem Marked.run (K : Crc) : ∀ (ops : List NOp) (s : NV), Marked s → (∀ op ∈ ops, ∀ b, op ≠ .startRead b) → Marked (s.run K ops).1
  | [], _, h, _ => h
  | op :: ops, s, h, ho => Marked.run K ops _ (h.step K op (ho op (by simp))) (fun x hx => ho x (by simp [hx]))

theorem asyncRead_marked {K : Crc} : ∀ (fuel : Nat) (s : NV), Marked s → Marked (s.asyncRead K fuel).1
  | 0, _, h => h
  | fuel + 1, s, h => by
    have h1 : Marked (s.cursorRead K false).1 := by
      rcases cursorRead_core s K false with e | ⟨rs, -, e⟩
      · rw [e]; exact h
      · rw [e]; exact cursorLoop_marked K rs false _ s h
    unfold NV.asyncRead
    split
    · split
      · exact asyncRead_marked fuel _ h1
      · exact h1
    · exact h

/-- C110: a read that waits, waits with nothing to read, after every history without reads by a plain consumer; and it is woken by the next commit that goes through,
which marks the buffer as readable. -/
theorem C110_waiting (K : Crc) (len : Nat) (crc overwrite blockOnRead : Bool) (ops : List NOp) (ho : ∀ op ∈ ops, ∀ b, op ≠ .startRead b) (fuel : Nat)
    (h : (((NV.new K len crc overwrite blockOnRead).run K ops).1.asyncRead K fuel).2 = (none, true)) :
    let s := (((NV.new K len crc overwrite blockOnRead).run K ops).1.asyncRead K fuel).1
    s.core.ncrs = none ∧ ∀ s' : NV, (s'.commit K).2 = .ok () → (s'.commit K).1.core.readable = true := by
  have h1 := asyncRead_waits _ _ h
  have h2 := asyncRead_marked (K := K) fuel _ (Marked.run K ops (NV.new K len crc overwrite blockOnRead) nofun ho)
  refine ⟨h2 h1, fun s' hc => ?_⟩
  unfold NV.commit at hc ⊢
  split at hc
  · have hm : ∀ (c : Core) (b : Bool), (c.maybeReset b).readable = c.readable := by
      intro c b
      unfold Core.maybeReset
      split <;> rfl
    have hw : ∀ (c : Core) (b : Bool) (q : Range), (c.writeCrc K b q).readable = c.readable := by
      intro c b q
      unfold Core.writeCrc
      split <;> rfl
    exact (hm _ _).trans (hw _ _ _)
  · cases hc
  · cases hc

/-- A read that waits, and gets the record when it is there; and one round that finds a loss and waits. -/
example :
    let s := ((NV.new testCrc 64 false false true).run testCrc ([.registerProducer, .registerCursor] ++ put [1, 2, 3])).1
    let r1 := s.asyncRead testCrc 5
    let r2 := r1.1.asyncRead testCrc 5
    let r3 := (r2.1.run testCrc (put [4, 5])).1.asyncRead testCrc 5
    r1.2.1 = some (.ok (⟨4, 3⟩, [1, 2, 3])) ∧ r2.2.1 = none ∧ r2.2.2 = true ∧ r3.2.1 = some (.ok (⟨11, 2⟩, [4, 5])) ∧
    ((s.run testCrc [.alter 0 0]).1.asyncRead testCrc 2).2.1 = none ∧ ((s.run testCrc [.alter 0 0]).1.asyncRead testCrc 2).2.2 = true := by decide +kernel

end Verif.Buffer
