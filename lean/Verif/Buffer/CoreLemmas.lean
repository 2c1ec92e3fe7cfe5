import Verif.Buffer.Geometry

/-
Invariant of the index bookkeeping shared by the ring buffers, preserved by every operation of
`common_ring_buffer.rs`.  Helper lemmas only.
-/
namespace Verif.Buffer

/-! ### Memory -/

theorem readMem_length (m : Mem) (off n : Nat) : (readMem m off n).length = n := by
  simp [readMem]

theorem readMem_getElem? (m : Mem) (off n i : Nat) (h : i < n) :
    (readMem m off n)[i]? = some (m (off + i)) := by
  simp [readMem, h]

theorem writeMem_out (m : Mem) (off : Nat) (bs : List UInt8) (i : Nat)
    (h : i < off ∨ off + bs.length ≤ i) : writeMem m off bs i = m i := by
  unfold writeMem; rw [if_neg (by omega)]

theorem writeMem_in (m : Mem) (off : Nat) (bs : List UInt8) (i : Nat)
    (h : i < bs.length) : writeMem m off bs (off + i) = bs[i] := by
  unfold writeMem; rw [if_pos (by omega)]
  simp [h]

theorem writeMem_nil (m : Mem) (off : Nat) : writeMem m off [] = m := by
  funext i; simp [writeMem]; omega

theorem readMem_congr {m m' : Mem} {off n : Nat} (h : ∀ i, i < n → m (off + i) = m' (off + i)) :
    readMem m off n = readMem m' off n := by
  unfold readMem
  apply List.map_congr_left
  intro i hi
  exact h i (List.mem_range.1 hi)

theorem readMem_writeMem_same (m : Mem) (off : Nat) (bs : List UInt8) :
    readMem (writeMem m off bs) off bs.length = bs := by
  apply List.ext_getElem
  · simp [readMem]
  · intro i h1 h2
    simp [readMem]
    exact writeMem_in m off bs i h2

theorem le32_length (n : Nat) : (le32 n).length = 4 := rfl

theorem ofLe32_le32 (n : Nat) (h : n < 2 ^ 32) : ofLe32 (le32 n) = n := by
  simp [ofLe32, le32]
  omega

/-! ### Records -/

/-- The size stored in memory for record `r` is right. -/
def HdrOk (m : Mem) (xb : Nat) (r : Range) : Prop :=
  xb < r.size ∧ ofLe32 (readMem m (r.start + (xb - 4)) 4) + xb = r.size

theorem HdrOk.congr {m m' : Mem} {xb : Nat} {r : Range} (hxb : 4 ≤ xb)
    (h : ∀ i, r.start + (xb - 4) ≤ i → i < r.stop → m i = m' i) (hr : HdrOk m xb r) :
    HdrOk m' xb r := by
  refine ⟨hr.1, ?_⟩
  rw [← hr.2]
  congr 2
  apply readMem_congr
  intro i hi
  have := hr.1
  exact (h _ (by omega) (by simp [Range.stop]; omega)).symm

/-- The part of the state `LockedData` that is consistent with the unread committed records `U` and
the outstanding reservations `O`, both oldest first. -/
structure CoreInv (c : Core) (U O : List Range) : Prop where
  xb4 : 4 ≤ c.xb
  len32 : c.len < 2 ^ 32
  layout : Layout c.len c.nws c.lweb (U ++ O)
  nrs : c.nrs = U.head?.map (·.start)
  cws : c.cws = U.getLast?.map (·.start)
  hdr : ∀ r ∈ U ++ O, HdrOk c.mem c.xb r
  pend : c.pendingReset = false
  panic : c.panicked = false

theorem CoreInv.loadSize {c : Core} {U O : List Range} (h : CoreInv c U O) {r : Range}
    (hr : r ∈ U ++ O) : c.loadSize r.start = some (r.size - c.xb) := by
  have h1 := (h.layout.mem hr).1
  obtain ⟨h2, h3⟩ := h.hdr r hr
  have := h.len32
  have := h.xb4
  simp only [Range.stop] at h1
  have e : ofLe32 (readMem c.mem (r.start + (c.xb - 4)) 4) = r.size - c.xb := by omega
  simp only [Core.loadSize, Core.sizeOffset, e]
  rw [if_neg (by omega), if_neg (by omega)]

/-- Reading or overwriting the oldest record. -/
theorem CoreInv.advanceRead {c : Core} {U O : List Range} {r : Range}
    (h : CoreInv c (r :: U) O) : CoreInv (c.advanceRead r.size) U O := by
  obtain ⟨h1, h2, h3, h4, h5, h6, h7, h8⟩ := h
  simp only [List.head?_cons, Option.map_some] at h4
  cases U with
  | nil =>
    simp only [List.getLast?_singleton, Option.map_some] at h5
    have e : c.advanceRead r.size = { c with nrs := none, cws := none } := by
      simp [Core.advanceRead, h4, h5]
    rw [e]
    exact ⟨h1, h2, h3.tail, rfl, rfl, fun x hx => h6 x (by simp at hx ⊢; exact Or.inr hx), h7, h8⟩
  | cons r' U =>
    have hlast : ∃ q, (r :: r' :: U).getLast? = some q ∧ q ∈ r' :: U := by
      refine ⟨(r' :: U).getLast (by simp), ?_, List.getLast_mem _⟩
      simp [List.getLast?_eq_some_getLast]
    obtain ⟨q, hq, hqm⟩ := hlast
    rw [hq] at h5
    simp only [Option.map_some] at h5
    have hne : r.start ≠ q.start := h3.head_ne (by
      simp at hqm ⊢
      rcases hqm with h | h
      · exact Or.inl h
      · exact Or.inr (Or.inl h))
    have hn := h3.next
    have hq' : (r' :: U).getLast? = some q := by
      simpa [List.getLast?_cons_cons] using hq
    by_cases hl : c.lweb = some (r.start + r.size - 1)
    · have e : c.advanceRead r.size = { c with lweb := none, nrs := some 0 } := by
        simp [Core.advanceRead, h4, h5, hne, hl]
      rw [e]
      have := hn.1 hl
      refine ⟨h1, h2, this.2, ?_, ?_, fun x hx => h6 x (by simp at hx ⊢; exact Or.inr hx), h7, h8⟩
      · simp [this.1]
      · simp [h5, hq']
    · have e : c.advanceRead r.size = { c with nrs := some (r.start + r.size) } := by
        simp [Core.advanceRead, h4, h5, hne, hl]
      rw [e]
      have := hn.2 hl
      refine ⟨h1, h2, h3.tail, ?_, ?_, fun x hx => h6 x (by simp at hx ⊢; exact Or.inr hx), h7, h8⟩
      · simp [this]
      · simp [h5, hq']

/-- `advance_next_read` only touches three indices. -/
theorem advanceRead_frame (c : Core) (n : Nat) :
    ∃ a b l p, c.advanceRead n = { c with nrs := a, cws := b, lweb := l, panicked := p } := by
  unfold Core.advanceRead
  split
  · split
    · split
      · exact ⟨_, _, _, _, rfl⟩
      · exact ⟨_, _, _, _, rfl⟩
    · exact ⟨_, _, _, _, rfl⟩
  · exact ⟨_, _, _, _, rfl⟩

/-- Memory that differs only in the extra bytes of the records `V`. -/
def SameBut (xb : Nat) (V : List Range) (m m' : Mem) : Prop :=
  ∀ i, (∀ r ∈ V, i < r.start ∨ r.start + (xb - 4) ≤ i) → m' i = m i

theorem CoreInv.zeroExtra {c : Core} {U O : List Range} {r : Range}
    (h : CoreInv c (r :: U) O) : CoreInv (c.zeroExtra r.start) (r :: U) O := by
  obtain ⟨h1, h2, h3, h4, h5, h6, h7, h8⟩ := h
  refine ⟨h1, h2, h3, h4, h5, fun x hx => ?_, h7, h8⟩
  refine (h6 x hx).congr h1 (fun i hi1 hi2 => ?_)
  simp only [Core.zeroExtra]
  rw [writeMem_out]
  simp only [List.length_replicate]
  have hp := h3.pairwise
  have hxr : x = r ∨ Disj r x := by
    simp only [List.cons_append, List.mem_cons] at hx
    rcases hx with hx | hx
    · exact Or.inl hx
    · exact Or.inr ((List.pairwise_cons.1 hp).1 x hx)
  have hr := (h6 r (by simp)).1
  have e : (c.zeroExtra r.start).xb = c.xb := rfl
  rw [e] at hi1
  rcases hxr with rfl | hd
  · right; omega
  · simp only [Disj, Range.stop] at hd hi2; omega

/-- What the overwrite loop does: drop the longest prefix of unread records that is in the way. -/
theorem CoreInv.advanceForWrite {U : List Range} :
    ∀ {c : Core} {O : List Range} {n : Nat} (busy block : Bool) (fuel : Nat),
    CoreInv c U O → c.overwrite = true → 0 < n → n ≤ c.len → U.length < fuel →
    (∀ t : Temp, t = c.calcNextWriteStart n →
    ∃ V K c', U = V ++ K ∧ (∀ r ∈ V, needs c.len c.nws n r = true) ∧
      (∀ r, K.head? = some r → needs c.len c.nws n r = false) ∧
      c.advanceForWrite busy t block fuel = (c', .ok ()) ∧
      CoreInv c' K O ∧ SameBut c.xb V c.mem c'.mem ∧
      ∃ m a b l, c' = { c with
        mem := m, nrs := a, cws := b, lweb := l,
        stats := { c.stats with
          recordsOverwritten := c.stats.recordsOverwritten + V.length
          bytesOverwritten := c.stats.bytesOverwritten + (V.map (fun r => r.size - c.xb)).sum } })
    := by
  induction U with
  | nil =>
    intro c O n busy block fuel h ho hn0 hn hf t ht
    obtain ⟨fuel, rfl⟩ : ∃ k, fuel = k + 1 := ⟨fuel - 1, by simp at hf; omega⟩
    refine ⟨[], [], c, rfl, by simp, by simp, ?_, h, fun i _ => rfl, c.mem, c.nrs, c.cws, c.lweb,
      rfl⟩
    have : c.nrs = none := by simpa using h.nrs
    simp [Core.advanceForWrite, this]
  | cons r U ih =>
    intro c O n busy block fuel h ho hn0 hn hf t ht
    obtain ⟨fuel, rfl⟩ : ∃ k, fuel = k + 1 := ⟨fuel - 1, by simp at hf; omega⟩
    have hnrs : c.nrs = some r.start := by simpa using h.nrs
    have hmem : r ∈ r :: U ++ O := by simp
    have hload := h.loadSize hmem
    have hr1 := (h.layout.mem hmem).1
    have hr2 := (h.hdr r hmem).1
    have hsz : r.size - c.xb + c.xb = r.size := by omega
    have hint : c.intersectReservation t ⟨r.start, r.size - c.xb + c.xb⟩ = needs c.len c.nws n r := by
      rw [hsz, ht]
      exact intersectReservation_eq c n r hn0 hn h.layout.1 (by omega) hr1
    by_cases hneed : needs c.len c.nws n r = true
    · -- overwritten
      let c1 : Core := { c with stats := { c.stats with
              recordsOverwritten := c.stats.recordsOverwritten + 1
              bytesOverwritten := c.stats.bytesOverwritten + (r.size - c.xb) } }
      have hc1 : CoreInv c1 (r :: U) O :=
        ⟨h.xb4, h.len32, h.layout, h.nrs, h.cws, h.hdr, h.pend, h.panic⟩
      have hc2 := hc1.zeroExtra.advanceRead
      obtain ⟨a, b, l, p, hfr⟩ := advanceRead_frame (c1.zeroExtra r.start) r.size
      have hp : p = false := by
        have := hc2.panic
        rw [hfr] at this; exact this
      have hcalc : ∀ c' : Core, c'.len = c.len → c'.nws = c.nws →
          c'.calcNextWriteStart n = c.calcNextWriteStart n := by
        intro c' e1 e2; simp [Core.calcNextWriteStart, e1, e2]
      obtain ⟨V, K, c', e1, e2, e3, e4, e5, e6, m, a', b', l', e7⟩ :=
        ih (n := n) busy block fuel hc2 (by rw [hfr]; exact ho) hn0 (by rw [hfr]; exact hn)
          (by simp at hf ⊢; omega) t (by rw [ht]; exact (hcalc _ (by rw [hfr]; rfl) (by rw [hfr]; rfl)).symm)
      refine ⟨r :: V, K, c', by simp [e1], ?_, ?_, ?_, e5, ?_, m, a', b', l', ?_⟩
      · intro x hx
        rcases List.mem_cons.1 hx with rfl | hx
        · exact hneed
        · have := e2 x hx
          rw [hfr] at this; exact this
      · intro x hx
        have := e3 x hx
        rw [hfr] at this; exact this
      · rw [← e4]
        conv => lhs; unfold Core.advanceForWrite
        simp only [hnrs, hload, hint, hneed, if_true, ho, Bool.not_true, Bool.false_eq_true, if_false]
        rw [hsz]
        simp only [c1, hnrs, ho]
      · intro i hi
        have h1 := e6 i (by
          rw [hfr]
          intro x hx
          exact hi x (List.mem_cons_of_mem _ hx))
        rw [h1, hfr]
        simp only [Core.zeroExtra]
        have := hi r (by simp)
        rw [writeMem_out]
        simp only [List.length_replicate]
        exact this
      · rw [e7, hfr, hp]
        simp [Core.zeroExtra, c1, h.panic]
        omega
    · -- stop here
      refine ⟨[], r :: U, c, rfl, by simp, ?_, ?_, h, fun i _ => rfl, c.mem, c.nrs, c.cws, c.lweb,
        rfl⟩
      · intro x hx
        simp at hx; subst hx; simpa using hneed
      · unfold Core.advanceForWrite
        simp only [hnrs, hload, hint, hneed]
        rfl

/-- The memory written by `finish_reservation`. -/
theorem finishReservation_eq (c : Core) (start size : Nat) :
    c.finishReservation start size = { c with
      mem := writeMem (writeMem c.mem (start + (c.xb - 4)) (le32 size)) start
        (List.replicate (c.xb - 4) 0)
      lweb := match c.lweb with
        | some e => if start + size + c.xb - 1 > e then none else some e
        | none => none } := by
  cases hl : c.lweb with
  | none => simp [Core.finishReservation, Core.zeroExtra, Core.sizeOffset, hl]
  | some e =>
    by_cases h : start + size + c.xb - 1 > e
    · simp [Core.finishReservation, Core.zeroExtra, Core.sizeOffset, hl, h]
    · simp [Core.finishReservation, Core.zeroExtra, Core.sizeOffset, hl, h]

theorem applyReservation_eq (c : Core) (size : Nat) (hn : 0 < size + c.xb) :
    c.applyReservation (c.calcNextWriteStart (size + c.xb)) size = { c with
      nws := placeOf c.len c.nws (size + c.xb) + (size + c.xb)
      mem := writeMem (writeMem c.mem (placeOf c.len c.nws (size + c.xb) + (c.xb - 4)) (le32 size))
        (placeOf c.len c.nws (size + c.xb)) (List.replicate (c.xb - 4) 0)
      lweb := lwebAfter c.len c.nws (size + c.xb) c.lweb } := by
  unfold Core.applyReservation
  rw [finishReservation_eq]
  unfold Core.calcNextWriteStart placeOf lwebAfter
  by_cases hc : c.nws + (size + c.xb) ≤ c.len
  · have : c.nws + size + c.xb - 1 = c.nws + (size + c.xb) - 1 := by omega
    cases c.lweb <;> simp [hc, this]
  · simp [hc]

theorem calc_range (c : Core) (n : Nat) :
    (c.calcNextWriteStart n).range = ⟨placeOf c.len c.nws n, n⟩ := by
  unfold Core.calcNextWriteStart placeOf
  split <;> rfl

/-- Granting a reservation once nothing is in the way. -/
theorem CoreInv.applyReservation {c : Core} {U O : List Range} {size : Nat}
    (h : CoreInv c U O) (h0 : 0 < size) (hn : size + c.xb ≤ c.len)
    (hfree : ∀ r ∈ U ++ O, needs c.len c.nws (size + c.xb) r = false) :
    CoreInv (c.applyReservation (c.calcNextWriteStart (size + c.xb)) size) U
      (O ++ [⟨placeOf c.len c.nws (size + c.xb), size + c.xb⟩]) := by
  obtain ⟨h1, h2, h3, h4, h5, h6, h7, h8⟩ := h
  rw [applyReservation_eq c size (by omega)]
  refine ⟨h1, h2, ?_, h4, h5, ?_, h7, h8⟩
  · rw [← List.append_assoc]
    exact h3.add (by omega) hn hfree
  · intro r hr
    rw [← List.append_assoc] at hr
    rcases List.mem_append.1 hr with hr | hr
    · -- an old record, untouched
      have hd := disj_of_not_needs (h3.mem hr).2 (by omega) (hfree r hr)
      refine (h6 r hr).congr h1 (fun i hi1 hi2 => ?_)
      simp only [Disj, Range.stop] at hd hi2
      simp only
      rw [writeMem_out, writeMem_out]
      · simp only [le32_length]; omega
      · simp only [List.length_replicate]; omega
    · simp at hr
      subst hr
      refine ⟨by simp only; omega, ?_⟩
      have e : readMem (writeMem (writeMem c.mem (placeOf c.len c.nws (size + c.xb) + (c.xb - 4))
          (le32 size)) (placeOf c.len c.nws (size + c.xb)) (List.replicate (c.xb - 4) 0))
          (placeOf c.len c.nws (size + c.xb) + (c.xb - 4)) 4 = le32 size := by
        refine Eq.trans ?_ (readMem_writeMem_same c.mem
          (placeOf c.len c.nws (size + c.xb) + (c.xb - 4)) (le32 size))
        apply readMem_congr
        intro i hi
        rw [writeMem_out]
        simp only [List.length_replicate]; omega
      rw [e, ofLe32_le32 _ (by omega)]

/-- Bytes outside the header of the new record are untouched. -/
theorem applyReservation_mem (c : Core) (size : Nat) (h : 0 < size + c.xb) (hxb : 4 ≤ c.xb) (i : Nat)
    (hi : i < placeOf c.len c.nws (size + c.xb) ∨
      placeOf c.len c.nws (size + c.xb) + c.xb ≤ i) :
    (c.applyReservation (c.calcNextWriteStart (size + c.xb)) size).mem i = c.mem i := by
  rw [applyReservation_eq c size h]
  simp only
  rw [writeMem_out, writeMem_out]
  · simp only [le32_length]; omega
  · simp only [List.length_replicate]; omega

/-- The oldest outstanding reservation becomes readable. -/
theorem CoreInv.advanceCommitted {c : Core} {U O : List Range} {r : Range}
    (h : CoreInv c U (r :: O)) : CoreInv (c.advanceCommitted r) (U ++ [r]) O := by
  obtain ⟨h1, h2, h3, h4, h5, h6, h7, h8⟩ := h
  refine ⟨h1, h2, by simpa [Core.advanceCommitted] using h3, ?_, by simp [Core.advanceCommitted], ?_,
    h7, h8⟩
  · simp only [Core.advanceCommitted, h4]
    cases U <;> simp
  · intro x hx
    exact h6 x (by simpa using hx)

end Verif.Buffer
