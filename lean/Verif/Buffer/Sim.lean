import Verif.Buffer.CoreLemmas
import Verif.Buffer.Spec

/-
Simulation between the volatile ring buffer and its FIFO specification.  Helper lemmas only.
-/
namespace Verif.Buffer

def Slot.range (s : Slot) : Range := ⟨s.start, s.size + 4⟩

def Slot.resv (s : Slot) : Resv := ⟨s.owner, s.range, s.committed⟩

theorem inTheWay_eq (f : Fifo) (n : Nat) (s : Slot) :
    f.inTheWay n s = needs f.len f.next n s.range := by
  have : s.stop = s.range.stop := by
    simp [Slot.stop, Range.stop, Slot.range, headerBytes]; omega
  simp [Fifo.inTheWay, needs, Slot.overlaps, Range.hits, this]
  rfl

/-- The bytes of the slot are in memory. -/
def SlotMem (m : Mem) (s : Slot) : Prop :=
  0 < s.size ∧ s.data.length = s.size ∧
    ∀ (i : Nat) (b : UInt8), s.data[i]? = some (some b) → m (s.start + 4 + i) = b

theorem SlotMem.congr {m m' : Mem} {s : Slot} (h : SlotMem m s)
    (he : ∀ i, s.start + 4 ≤ i → i < s.range.stop → m i = m' i) : SlotMem m' s := by
  refine ⟨h.1, h.2.1, fun i b hi => ?_⟩
  rw [← h.2.2 i b hi]
  have hlt : i < s.data.length := by
    rcases Nat.lt_or_ge i s.data.length with h | h
    · exact h
    · rw [List.getElem?_eq_none h] at hi; simp at hi
  have := h.2.1
  exact (he _ (by omega) (by simp [Range.stop, Slot.range]; omega)).symm

/-- No two uncommitted slots have the same owner. -/
def OwnersDistinct (l : List Slot) : Prop :=
  l.Pairwise fun s t => s.committed = false → t.committed = false → s.owner ≠ t.owner

def sumBytes (l : List Slot) : Nat := (l.map (·.size)).sum

structure Sim (v : Vol) (f : Fifo) (U O : List Slot) : Prop where
  slots : f.slots = U ++ O
  com : ∀ s ∈ U, s.committed = true
  unc : ∀ o, O.head? = some o → o.committed = false
  resv : v.resv = O.map Slot.resv
  inv : CoreInv v.core (U.map Slot.range) (O.map Slot.range)
  len : v.core.len = f.len
  xb : v.core.xb = 4
  ow : v.core.overwrite = true
  nws : v.core.nws = f.next
  locks : v.core.lockCount = f.locks
  shut : v.core.shutdown = f.shutdown
  data : ∀ s ∈ U ++ O, SlotMem v.core.mem s
  cons : match f.consumer with
    | none => v.consumer = none
    | some false => v.consumer = some none
    | some true => ∃ s, U.head? = some s ∧ v.consumer = some (some s.range)
  ids : (U ++ O).Pairwise (fun s t => s.id < t.id)
  idlt : ∀ s ∈ U ++ O, s.id < f.granted
  owners : OwnersDistinct (U ++ O)
  drain : v.core.drain = f.drain.map some
  lostR : v.core.stats.recordsOverwritten = f.lostRecords
  lostB : v.core.stats.bytesOverwritten = f.lostBytes
  refR : v.core.stats.recordsRefused = f.refusedRecords
  refB : v.core.stats.bytesRefused = f.refusedBytes
  cntR : v.core.stats.recordsWritten =
    v.core.stats.recordsRead + v.core.stats.recordsOverwritten + U.length
  cntB : v.core.stats.bytesWritten =
    v.core.stats.bytesRead + v.core.stats.bytesOverwritten + sumBytes U

theorem Sim.new (len : Nat) (mem : Mem) (h : len < 2 ^ 32) :
    Sim (Vol.new len mem) (Fifo.new len) [] [] := by
  refine ⟨rfl, by simp, by simp, rfl, ?_, rfl, rfl, rfl, rfl, rfl, rfl, by simp, rfl, .nil, by simp,
    .nil, rfl, rfl, rfl, rfl, rfl, rfl, rfl⟩
  exact ⟨Nat.le_refl _, h, Layout.nil (Nat.zero_le _) (by simp [Vol.new]), rfl, rfl, by simp, rfl, rfl⟩

theorem takeWhile_append {p : Slot → Bool} {U O : List Slot} (h : ∀ s ∈ U, p s = true)
    (h' : ∀ o, O.head? = some o → p o = false) : (U ++ O).takeWhile p = U := by
  induction U with
  | nil =>
    cases O with
    | nil => rfl
    | cons o O => simp [h' o rfl]
  | cons u U ih =>
    simp [h u (by simp)]
    exact ih (fun s hs => h s (by simp [hs]))

theorem Sim.visible {v : Vol} {f : Fifo} {U O : List Slot} (h : Sim v f U O) : f.visible = U := by
  rw [Fifo.visible, h.slots]
  exact takeWhile_append h.com h.unc

theorem Sim.holds {v : Vol} {f : Fifo} {U O : List Slot} (h : Sim v f U O) (p : Nat) :
    v.holds p = f.slots.any (fun s => s.owner == p && !s.committed) := by
  rw [h.slots, Vol.holds, h.resv, List.any_append]
  have : U.any (fun s => s.owner == p && !s.committed) = false := by
    rw [List.any_eq_false]
    intro s hs
    simp [h.com s hs]
  rw [this, Bool.false_or, List.any_map]
  rfl

/-- Changing fields the relation does not look at, or only counting refusals. -/
theorem Sim.refuse {v : Vol} {f : Fifo} {U O : List Slot} (h : Sim v f U O) (bytes : Nat)
    (c : Core) (hc : c = { v.core with stats := { v.core.stats with
      recordsRefused := v.core.stats.recordsRefused + 1
      bytesRefused := v.core.stats.bytesRefused + bytes } }) :
    Sim { v with core := c } (f.refuse bytes) U O := by
  subst hc
  obtain ⟨h1, h2, h3, h4, h5, h6, h7, h8, h9, h10, h11, h12, h13, h14, h15, h16, h17, h18, h19, h20,
    h21, h22, h23⟩ := h
  refine ⟨h1, h2, h3, h4, ?_, h6, h7, h8, h9, h10, h11, h12, h13, h14, h15, h16, h17, h18, h19, ?_,
    ?_, h22, h23⟩
  · obtain ⟨g1, g2, g3, g4, g5, g6, g7, g8⟩ := h5
    exact ⟨g1, g2, g3, g4, g5, g6, g7, g8⟩
  · simp [Fifo.refuse, h20]
  · simp [Fifo.refuse, h21]

theorem Sim.mem_range {v : Vol} {f : Fifo} {U O : List Slot} (_h : Sim v f U O) {s : Slot}
    (hs : s ∈ U ++ O) : s.range ∈ U.map Slot.range ++ O.map Slot.range := by
  rw [← List.map_append]
  exact List.mem_map_of_mem hs

theorem Sim.intersect {v : Vol} {f : Fifo} {U O : List Slot} (h : Sim v f U O) {s : Slot}
    (hs : s ∈ U ++ O) {n : Nat} (hn0 : 0 < n) (hn : n ≤ f.len) :
    v.core.intersectReservation (v.core.calcNextWriteStart n) s.range = f.inTheWay n s := by
  have hm := h.inv.layout.mem (h.mem_range hs)
  rw [intersectReservation_eq v.core n s.range hn0 (by rw [h.len]; exact hn) h.inv.layout.1 hm.2 hm.1,
    inTheWay_eq, h.len, h.nws]

/-- The slots in the way are a prefix of the unread records when no reservation is. -/
theorem Sim.noneInO {v : Vol} {f : Fifo} {U O : List Slot} (h : Sim v f U O) {n : Nat}
    (hn : n ≤ f.len) (ho : ∀ o, O.head? = some o → f.inTheWay n o = false) :
    ∀ o ∈ O, f.inTheWay n o = false := by
  cases O with
  | nil => simp
  | cons o O =>
    have h1 := ho o rfl
    rw [inTheWay_eq] at h1
    intro o' ho'
    rcases List.mem_cons.1 ho' with rfl | ho'
    · exact ho _ rfl
    · -- drop the unread records, then use `needs_head`
      have hl := h.inv.layout
      have hdrop : ∀ (A B : List Range), Layout v.core.len v.core.nws v.core.lweb (A ++ B) →
          Layout v.core.len v.core.nws v.core.lweb B := by
        intro A B
        induction A with
        | nil => exact id
        | cons a A ih => intro hh; exact ih hh.tail
      have hl2 := hdrop _ _ hl
      rw [List.map_cons] at hl2
      have := needs_head (n := n) (by rw [h.len]; exact hn) hl2 (by rw [h.len, h.nws]; exact h1)
        o'.range (List.mem_map_of_mem ho')
      rw [inTheWay_eq, ← h.len, ← h.nws]
      exact this

theorem Sim.noneAfter {v : Vol} {f : Fifo} {U O : List Slot} (h : Sim v f U O) {n : Nat}
    (hn : n ≤ f.len) {A B : List Slot} {s : Slot} (hAB : U ++ O = A ++ s :: B)
    (hs : f.inTheWay n s = false) : ∀ o ∈ B, f.inTheWay n o = false := by
  intro o ho
  have hl := h.inv.layout
  rw [← List.map_append, hAB, List.map_append, List.map_cons] at hl
  have hdrop : ∀ (A B : List Range), Layout v.core.len v.core.nws v.core.lweb (A ++ B) →
      Layout v.core.len v.core.nws v.core.lweb B := by
    intro A B
    induction A with
    | nil => exact id
    | cons a A ih => intro hh; exact ih hh.tail
  have hl2 := hdrop _ _ hl
  rw [inTheWay_eq] at hs
  have := needs_head (n := n) (by rw [h.len]; exact hn) hl2 (by rw [h.len, h.nws]; exact hs)
    o.range (List.mem_map_of_mem ho)
  rw [inTheWay_eq, ← h.len, ← h.nws]
  exact this

theorem map_split {α β : Type} {g : α → β} {U : List α} {A B : List β} (h : U.map g = A ++ B) :
    ∃ V K, U = V ++ K ∧ V.map g = A ∧ K.map g = B := by
  rw [List.map_eq_append_iff] at h
  obtain ⟨V, K, h1, h2, h3⟩ := h
  exact ⟨V, K, h1, h2, h3⟩

theorem layout_length {len nws : Nat} {lweb : Option Nat} {L : List Range}
    (h : Layout len nws lweb L) : L.length ≤ len + len := by
  have hseg : ∀ {a b : Nat} {l : List Range}, Seg a l b → l.length + a ≤ b := by
    intro a b l
    induction l generalizing a with
    | nil => intro h; simp [Seg] at h; simp [h]
    | cons r l ih =>
      intro h
      have := ih h.2.2
      have h1 := h.1
      have h2 := h.2.1
      simp [Range.stop] at this ⊢; omega
  obtain ⟨h1, h2, h3 | ⟨a, b, P, Q, rfl, hP, hQ, sP, sQ, hna, hb, hl⟩⟩ := h
  · obtain ⟨a, s⟩ := h3
    have := hseg s; omega
  · have := hseg sP
    have := hseg sQ
    simp; omega

theorem sumSizes_ranges (V : List Slot) :
    ((V.map Slot.range).map (fun r => r.size - 4)).sum = sumSizes V := by
  rw [List.map_map]; rfl

theorem sum_append_nat (l l' : List Nat) : (l ++ l').sum = l.sum + l'.sum := by
  simp

/-- A granted reservation. -/
theorem Sim.reserveOk {v : Vol} {f : Fifo} {U O : List Slot} (h : Sim v f U O) (p size : Nat)
    (hh : f.slots.any (fun s => s.owner == p && !s.committed) = false)
    (h0 : 0 < size) (hn : size + 4 ≤ f.len)
    (hcons : ∀ s, f.consumer = some true → U.head? = some s → f.inTheWay (size + 4) s = false)
    (hO : ∀ o, O.head? = some o → f.inTheWay (size + 4) o = false) (busy : Bool) :
    ∃ V K c', U = V ++ K ∧
      v.core.advanceForWrite busy (v.core.calcNextWriteStart (size + v.core.xb)) true
        v.core.advanceFuel = (c', .ok ()) ∧ c'.xb = 4 ∧
      f.slots.filter (f.inTheWay (size + 4)) = V ∧
      f.slots.any (fun s => f.inTheWay (size + 4) s && f.pinned s) = false ∧
      let new : Slot := { id := f.granted, owner := p, start := f.place (size + 4), size := size,
                          data := List.replicate size none, committed := false }
      Sim { v with core := c'.applyReservation (v.core.calcNextWriteStart (size + v.core.xb)) size
                   resv := v.resv ++ [new.resv] }
        { f with
          slots := f.slots.filter (fun s => !f.inTheWay (size + 4) s) ++ [new]
          next := f.place (size + 4) + (size + 4)
          granted := f.granted + 1
          lostRecords := f.lostRecords + V.length
          lostBytes := f.lostBytes + sumSizes V } K (O ++ [new]) := by
  have hxb := h.xb
  have hfuel : (U.map Slot.range).length < v.core.advanceFuel := by
    have := layout_length h.inv.layout
    simp [Core.advanceFuel] at this ⊢
    omega
  have hn' : size + v.core.xb ≤ v.core.len := by rw [hxb, h.len]; exact hn
  obtain ⟨V', K', c', e1, e2, e3, e4, e5, e6, m, a, b, l, e7⟩ :=
    h.inv.advanceForWrite busy true v.core.advanceFuel h.ow (n := size + v.core.xb)
      (by omega) hn' hfuel _ rfl
  obtain ⟨V, K, rfl, rfl, rfl⟩ := map_split e1
  have hnO := h.noneInO hn hO
  have hV : ∀ s ∈ V, f.inTheWay (size + 4) s = true := by
    intro s hs
    rw [inTheWay_eq, ← h.len, ← h.nws]
    have := e2 s.range (List.mem_map_of_mem hs)
    rwa [hxb] at this
  have hKO : ∀ s ∈ K ++ O, f.inTheWay (size + 4) s = false := by
    intro s hs
    rcases List.mem_append.1 hs with hs | hs
    · cases K with
      | nil => simp at hs
      | cons k K =>
        have hk : f.inTheWay (size + 4) k = false := by
          rw [inTheWay_eq, ← h.len, ← h.nws]
          have := e3 k.range rfl
          rwa [hxb] at this
        rcases List.mem_cons.1 hs with rfl | hs
        · exact hk
        · exact h.noneAfter hn (A := V) (s := k) (B := K ++ O) (by simp) hk s (by simp [hs])
    · exact hnO s hs
  have hfilt1 : f.slots.filter (f.inTheWay (size + 4)) = V := by
    rw [h.slots, List.append_assoc, List.filter_append, List.filter_eq_self.2 hV,
      List.filter_eq_nil_iff.2 (by intro s hs; simp [hKO s hs]), List.append_nil]
  have hfilt2 : f.slots.filter (fun s => !f.inTheWay (size + 4) s) = K ++ O := by
    rw [h.slots, List.append_assoc, List.filter_append,
      List.filter_eq_nil_iff.2 (by intro s hs; simp [hV s hs]),
      List.filter_eq_self.2 (by intro s hs; simp [hKO s hs]), List.nil_append]
  have hpin : f.slots.any (fun s => f.inTheWay (size + 4) s && f.pinned s) = false := by
    rw [List.any_eq_false]
    intro s hs
    rw [h.slots, List.append_assoc] at hs
    rcases List.mem_append.1 hs with hs | hs
    · -- a lost record is committed and not being read
      have hc := h.com s (by simp [hs])
      simp only [hV s hs, Bool.true_and, Fifo.pinned, hc, Bool.not_true, Bool.false_or, Fifo.isRead]
      cases hcs : f.consumer with
      | none => simp
      | some bb =>
        cases bb with
        | false => simp
        | true =>
          -- then the head is in the way, contradiction
          exfalso
          cases V with
          | nil => simp at hs
          | cons w V =>
            have := hcons w hcs (by simp)
            rw [hV w (by simp)] at this
            simp at this
    · simp [hKO s hs]
  have hplace : placeOf v.core.len v.core.nws (size + v.core.xb) = f.place (size + 4) := by
    rw [placeOf, Fifo.place, h.len, h.nws, hxb]
  refine ⟨V, K, c', rfl, e4, by rw [e7]; exact hxb, hfilt1, hpin, ?_⟩
  intro new
  have hnew : new.range = ⟨f.place (size + 4), size + 4⟩ := rfl
  -- the index state after the loop agrees with the one before it on `len`, `nws`
  have hcalc : v.core.calcNextWriteStart (size + v.core.xb) = c'.calcNextWriteStart (size + c'.xb) := by
    rw [e7]; rfl
  have hfree : ∀ r ∈ K.map Slot.range ++ O.map Slot.range,
      needs c'.len c'.nws (size + c'.xb) r = false := by
    intro r hr
    rw [← List.map_append] at hr
    obtain ⟨s, hs, rfl⟩ := List.mem_map.1 hr
    have := hKO s hs
    rw [inTheWay_eq, ← h.len, ← h.nws] at this
    rw [e7]; simp only; rw [hxb]; exact this
  have hplace' : placeOf c'.len c'.nws (size + c'.xb) = f.place (size + 4) := by
    rw [e7]; exact hplace
  have hxb' : c'.xb = 4 := by rw [e7]; exact hxb
  have hinv := e5.applyReservation h0 (by rw [e7]; exact hn') hfree
  rw [hplace', hxb'] at hinv
  rw [← hxb'] at hinv
  rw [hcalc]
  have hmem : ∀ s ∈ K ++ O, SlotMem (c'.applyReservation (c'.calcNextWriteStart (size + c'.xb)) size).mem s := by
    intro s hs
    have h1 := h.data s (by
      rw [List.append_assoc]; exact List.mem_append_right _ hs)
    refine h1.congr (fun i hi1 hi2 => ?_)
    have hd := disj_of_not_needs (n := size + c'.xb) (h.inv.layout.mem (h.mem_range (s := s)
      (by rw [List.append_assoc]; exact List.mem_append_right _ hs))).2 (by omega)
      (by have := hfree s.range (by rw [← List.map_append]; exact List.mem_map_of_mem hs); exact this)
    rw [hplace'] at hd
    rw [applyReservation_mem c' size (by omega) (by omega), e6 i]
    · intro r hr
      rw [hxb]; simp only [Nat.sub_self, Nat.add_zero]; omega
    · rw [hplace', hxb']
      simp only [Disj, Range.stop, hxb'] at hd
      simp only [Range.stop] at hi2
      have : s.range.start = s.start := rfl
      omega
  refine ⟨?_, fun s hs => h.com s (by simp [hs]), ?_, ?_, ?_, ?_, ?_, ?_, ?_, ?_, ?_, ?_, ?_, ?_, ?_, ?_,
    ?_, ?_, ?_, ?_, ?_, ?_, ?_⟩
  · simp [hfilt2]
  · intro o ho
    cases O with
    | nil => simp at ho; subst ho; rfl
    | cons o' O => exact h.unc o (by simpa using ho)
  · simp [h.resv]
  · rw [List.map_append]
    simp only [List.map_cons, List.map_nil, hnew]
    rw [hxb'] at hinv ⊢
    exact hinv
  · rw [applyReservation_eq c' size (by omega), e7]; exact h.len
  · rw [applyReservation_eq c' size (by omega), e7]; exact h.xb
  · rw [applyReservation_eq c' size (by omega), e7]; exact h.ow
  · rw [applyReservation_eq c' size (by omega)]
    show placeOf c'.len c'.nws (size + c'.xb) + (size + c'.xb) = _
    rw [hplace', hxb']
  · rw [applyReservation_eq c' size (by omega), e7]; exact h.locks
  · rw [applyReservation_eq c' size (by omega), e7]; exact h.shut
  · intro s hs
    rw [← List.append_assoc] at hs
    rcases List.mem_append.1 hs with hs | hs
    · exact hmem s hs
    · simp at hs
      subst hs
      refine ⟨h0, by simp [new], fun i b hi => ?_⟩
      simp [new, List.getElem?_replicate] at hi
  · -- consumer
    have hc := h.cons
    revert hc
    simp only
    cases hcs : f.consumer with
    | none => exact id
    | some bb =>
      cases bb with
      | false => exact id
      | true =>
        rintro ⟨s, hs, hv⟩
        refine ⟨s, ?_, hv⟩
        cases V with
        | nil => simpa using hs
        | cons w V =>
          exfalso
          have := hcons w hcs (by simp)
          rw [hV w (by simp)] at this
          simp at this
  · rw [← List.append_assoc, List.pairwise_append]
    refine ⟨?_, by simp, ?_⟩
    · have := h.ids
      rw [List.append_assoc] at this
      exact (List.pairwise_append.1 this).2.1
    · intro s hs t ht
      simp at ht
      subst ht
      exact h.idlt s (by rw [List.append_assoc]; exact List.mem_append_right _ hs)
  · intro s hs
    rw [← List.append_assoc] at hs
    rcases List.mem_append.1 hs with hs | hs
    · have := h.idlt s (by rw [List.append_assoc]; exact List.mem_append_right _ hs)
      simp only; omega
    · simp at hs
      subst hs
      simp [new]
  · rw [OwnersDistinct, ← List.append_assoc, List.pairwise_append]
    refine ⟨?_, by simp, ?_⟩
    · have := h.owners
      rw [OwnersDistinct, List.append_assoc] at this
      exact (List.pairwise_append.1 this).2.1
    · intro s hs t ht hs' _
      simp at ht
      subst ht
      rw [h.slots, List.any_eq_false] at hh
      have := hh s (by rw [List.append_assoc]; exact List.mem_append_right _ hs)
      simpa [hs', new] using this
  · rw [applyReservation_eq c' size (by omega), e7]; exact h.drain
  · rw [applyReservation_eq c' size (by omega), e7]; simp [h.lostR]
  · rw [applyReservation_eq c' size (by omega), e7]; simp only [h.lostB, hxb]
    rw [sumSizes_ranges]
  · rw [applyReservation_eq c' size (by omega), e7]; exact h.refR
  · rw [applyReservation_eq c' size (by omega), e7]; exact h.refB
  · rw [applyReservation_eq c' size (by omega), e7]
    have := h.cntR
    simp at this ⊢; omega
  · rw [applyReservation_eq c' size (by omega), e7]
    have := h.cntB
    simp only [hxb]
    rw [sumSizes_ranges]
    simp [sumBytes, sumSizes] at this ⊢; omega

end Verif.Buffer
