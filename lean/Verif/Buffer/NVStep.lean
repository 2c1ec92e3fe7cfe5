import Verif.Buffer.NVSim
import Verif.Buffer.Sim

/-
Every call of the persistent ring buffer preserves the simulation.  Helper lemmas only.
-/
namespace Verif.Buffer

theorem PQ.drop_zero {q : PQ} (h : q.items = [] → q.holes = []) : q.drop 0 = q := by
  unfold PQ.drop
  have e1 : holesAfter (q.items.drop 0) q.holes = q.holes := by
    rw [List.drop_zero]
    cases hi : q.items with
    | nil => rw [h hi]; rfl
    | cons => rfl
  have e2 : (q.cpos.bind fun k => if 0 ≤ k then some (k - 0) else none) = q.cpos := by
    cases q.cpos <;> simp
  rw [e1, e2, List.drop_zero]

theorem PQ.drop_drop (q : PQ) (a b : Nat) : (q.drop a).drop b = q.drop (a + b) := by
  unfold PQ.drop
  simp only [List.drop_drop]
  congr 1
  · simp only [holesAfter]
    by_cases h1 : q.items.drop a = []
    · have : q.items.drop (a + b) = [] := by
        rw [List.drop_eq_nil_iff] at h1 ⊢; omega
      simp [this]
    · by_cases h2 : q.items.drop (a + b) = [] <;> simp [h1]
  · cases q.cpos with
    | none => rfl
    | some k =>
      simp only [Option.bind_some]
      by_cases h1 : a ≤ k
      · rw [if_pos h1]
        simp only [Option.bind_some]
        by_cases h2 : b ≤ k - a
        · rw [if_pos h2, if_pos (by omega)]
          congr 1; omega
        · rw [if_neg h2, if_neg (by omega)]
      · rw [if_neg h1, if_neg (by omega)]
        rfl

theorem PQ.passes_drop (K : Crc) (q : PQ) (n : Nat) : (q.drop n).passes K = q.passes K := rfl

/-- Fields that do not matter. -/
theorem NVSim.frame {K : Crc} {s : NV} {q : PQ} (h : NVSim K s q) (st : Stats)
    (d : Option (Option Nat)) (rd : Bool) (lc : Nat) (sh : Bool) :
    NVSim K { s with core := { s.core with
      stats := st, drain := d, readable := rd, lockCount := lc, shutdown := sh } } q :=
  ⟨h.crc, h.core.frame st d rd lc sh, h.producer, h.reader, h.hdr, h.parked⟩

/-- `resume` stays possible as long as the write position does not move. -/
theorem parked_keep {s : NV} {c : Core} (h : ∀ p, s.parked = some p → s.producer = some none ∧
      0 < p.size ∧ p.size + s.core.xb ≤ s.core.len ∧
      p.t = s.core.calcNextWriteStart (p.size + s.core.xb) ∧
      (p.onRead = false → s.core.overwrite = false))
    (e1 : c.xb = s.core.xb) (e2 : c.len = s.core.len) (e3 : c.nws = s.core.nws)
    (e4 : c.overwrite = s.core.overwrite) :
    ∀ p, s.parked = some p → s.producer = some none ∧ 0 < p.size ∧ p.size + c.xb ≤ c.len ∧
      p.t = c.calcNextWriteStart (p.size + c.xb) ∧ (p.onRead = false → c.overwrite = false) := by
  intro p hp
  obtain ⟨h1, h2, h3, h4, h5⟩ := h p hp
  refine ⟨h1, h2, by rw [e1, e2]; exact h3, ?_, by rw [e4]; exact h5⟩
  rw [h4]
  simp only [Core.calcNextWriteStart, e1, e2, e3]

theorem finishRead_keep (c : Core) (busy : Bool) (r : Range)
    (hp : (c.advanceRead r.size).pendingReset = false) :
    (c.finishRead busy r).1.xb = c.xb ∧ (c.finishRead busy r).1.len = c.len ∧
    (c.finishRead busy r).1.nws = c.nws ∧ (c.finishRead busy r).1.overwrite = c.overwrite := by
  obtain ⟨st, d, e⟩ := finishRead_frame c busy r hp
  obtain ⟨a, b, l, p, hfr⟩ := advanceRead_frame c r.size
  rw [e, hfr]
  exact ⟨rfl, rfl, rfl, rfl⟩

def spoilStats (c : Core) : Core :=
  { c with stats := { c.stats with recordsCorrupted := c.stats.recordsCorrupted + 1 } }

theorem withCore_same {K : Crc} {s : NV} {c : Core}
    (h : c.stats.totalDataLoss = s.core.stats.totalDataLoss) : s.withCore K c = { s with core := c } := by
  simp [NV.withCore, h]

theorem plainLoop_succ (K : Crc) (s : NV) (block : Bool) (fuel : Nat) :
    s.plainLoop K block (fuel + 1) =
    match s.core.startRead s.hasWrite block none with
    | (c, .ok r) =>
      if s.crc then
        if c.recordCrc K r = c.storedCrc r then
          ({ s with core := c.zeroExtra r.start, consumer := some (.plain (some r)) }, .ok r)
        else
          NV.plainLoop K (({ s with core := ((spoilStats (c.zeroExtra r.start)).finishRead
            s.hasWrite r).1 }).syncHdr K) block fuel
      else ({ s with core := c, consumer := some (.plain (some r)) }, .ok r)
    | (c, .err e) => (s.withCore K c, .err e)
    | (c, .blocked) => (s.withCore K c, .blocked) := rfl

/-- The same outcome without a value. -/
def Res.as {α β : Type} : Res α → Res β
  | .ok _ => .blocked
  | .err e => .err e
  | .blocked => .blocked

theorem nothing_as {α β : Type} {block : Bool} {r : Res α} (h : nothing block r) :
    nothing block (r.as : Res β) := by
  unfold nothing at h ⊢
  split at h
  · rename_i hb
    rw [if_pos hb]
    rcases h with rfl | rfl
    · exact Or.inl rfl
    · exact Or.inr rfl
  · rename_i hb
    rw [if_neg hb]
    subst h; rfl

/-- Nothing to read. -/
theorem startRead_none {c : Core} (busy block : Bool) (h1 : c.pendingReset = false)
    (h2 : c.nrs = none) : ∃ rd r, c.startRead busy block none = ({ c with readable := rd }, r) ∧
      nothing block r := by
  have e : c.startRead busy block none = (if block then
      (if c.shutdown then (c, .err .aborted) else (c, .blocked))
      else ({ c with readable := false }, .err .unavailable)) := by
    simp [Core.startRead, h1, h2]
  rw [e]
  cases block
  · exact ⟨false, _, rfl, rfl⟩
  · by_cases hs : c.shutdown = true
    · rw [if_pos rfl, if_pos hs]; exact ⟨c.readable, _, rfl, Or.inr rfl⟩
    · rw [if_pos rfl, if_neg hs]; exact ⟨c.readable, _, rfl, Or.inl rfl⟩

theorem finishRead_corrupted (c : Core) (busy : Bool) (r : Range) :
    (c.finishRead busy r).1.stats.recordsCorrupted = c.stats.recordsCorrupted := by
  have h1 : (c.advanceRead r.size).stats.recordsCorrupted = c.stats.recordsCorrupted := by
    unfold Core.advanceRead
    (repeat' split) <;> rfl
  have h2 : ∀ c : Core, (c.maybeReset busy).stats.recordsCorrupted = c.stats.recordsCorrupted := by
    intro c; unfold Core.maybeReset; (repeat' split) <;> rfl
  unfold Core.finishRead
  simp only
  rw [h2]
  (repeat' split) <;> exact h1

theorem plainLoop_sim {K : Crc} (block : Bool) : ∀ (l : List Item) (fuel : Nat) (s : NV) (q : PQ),
    NVSim K s q → q.items = l → q.reader = some (.plain false) → l.length < fuel →
    match q.items.find? (q.passes K) with
    | some it => ∃ s', s.plainLoop K block fuel = (s', .ok (it.range q.hb)) ∧
        NVSim K s' { (q.drop (q.bad K)).spoil with reader := some (.plain true) } ∧
        readMem s'.core.mem (it.start + q.hb) it.size = it.data ∧
        s'.core.stats.recordsCorrupted = s.core.stats.recordsCorrupted + q.bad K
    | none => ∃ s' r, s.plainLoop K block fuel = (s', r) ∧ NVSim K s' (q.drop q.items.length) ∧
        nothing block r ∧ s'.core.stats.recordsCorrupted = s.core.stats.recordsCorrupted + q.bad K := by
  intro l
  induction l with
  | nil =>
    intro fuel s q h hi hr hf
    obtain ⟨fuel, rfl⟩ : ∃ k, fuel = k + 1 := ⟨fuel - 1, by simp at hf; omega⟩
    have hnrs : s.core.nrs = none := by have := h.core.inv.nrs; simpa [hi] using this
    have hpend := h.core.inv.pend
    rw [hi]
    simp only [List.find?_nil, List.length_nil]
    rw [PQ.drop_zero h.core.holes]
    obtain ⟨rd, r, e1, e2⟩ := startRead_none s.hasWrite block hpend hnrs
    have e : s.plainLoop K block (fuel + 1) =
        ({ s with core := { s.core with readable := rd } }, r.as) := by
      rw [plainLoop_succ, e1, ← withCore_same (K := K) (s := s) (c := { s.core with readable := rd }) rfl]
      unfold nothing at e2
      split at e2
      · rcases e2 with rfl | rfl <;> rfl
      · subst e2; rfl
    refine ⟨_, _, e, h.frame s.core.stats s.core.drain rd s.core.lockCount s.core.shutdown, ?_⟩
    exact ⟨nothing_as e2, by simp [PQ.bad, hi]⟩
  | cons it rest ih =>
    intro fuel s q h hi hr hf
    obtain ⟨fuel, rfl⟩ : ∃ k, fuel = k + 1 := ⟨fuel - 1, by simp at hf; omega⟩
    have hit : it ∈ q.items := by simp [hi]
    have hnrs : s.core.nrs = some it.start := by
      have := h.core.inv.nrs; simpa [hi, Item.range] using this
    have hpend := h.core.inv.pend
    have hload : s.core.loadSize it.start = some it.size := by
      have := h.core.inv.loadSize (r := it.range q.hb)
        (List.mem_append_left _ (List.mem_map_of_mem hit))
      rw [h.core.xb] at this
      simpa [Item.range] using this
    have hrange : (⟨it.start, it.size + s.core.xb⟩ : Range) = it.range q.hb := by
      rw [h.core.xb]; rfl
    have hcons : s.consumer = some (.plain none) := by
      have := h.reader; simpa [readerOk, hr] using this
    have hstart : s.core.startRead s.hasWrite block none = (s.core, .ok (it.range q.hb)) := by
      simp only [Core.startRead, Option.isSome_none, Bool.false_eq_true, if_false, hpend, hnrs, hload,
        hrange]
    rw [plainLoop_succ, hstart]
    show (match q.items.find? (q.passes K) with
      | some it' => ∃ s', (if s.crc then _ else _) = (s', Res.ok (it'.range q.hb)) ∧ _ ∧ _ ∧ _
      | none => ∃ s' r, (if s.crc then _ else _) = (s', r) ∧ _ ∧ _ ∧ _)
    cases hc : q.crc with
    | false =>
      have hscrc : s.crc = false := by rw [h.crc, hc]
      have hp : q.passes K it = true := by simp [PQ.passes, hc]
      have hb0 : q.bad K = 0 := by simp [PQ.bad, hi, hp]
      have hs0 : ¬ s.crc = true := by simp [hscrc]
      rw [if_neg hs0, hi, List.find?_cons, hp, hb0]
      refine ⟨_, rfl, ?_, (h.core.mem it (PQ.items_live hit)).1, rfl⟩
      rw [PQ.drop_zero h.core.holes]
      have : q.spoil = q := by simp [PQ.spoil, hc]
      rw [this]
      refine ⟨h.crc, ⟨h.core.ow, h.core.xb, h.core.inv, h.core.mem, h.core.holes, h.core.cpos⟩, h.producer, ?_, h.hdr, h.parked⟩
      simp only [readerOk, hi]
      exact ⟨by simp, rfl⟩
    | true =>
      have hscrc : s.crc = true := by rw [h.crc, hc]
      rw [if_pos hscrc]
      have hz := h.core.zero hi hc
      have hchk := h.core.check (K := K) hit hc
      by_cases hp : q.passes K it = true
      · have hb0 : q.bad K = 0 := by simp [PQ.bad, hi, hp]
        rw [if_pos (hchk.2 hp)]
        rw [hi, List.find?_cons, hp, hb0]
        refine ⟨_, rfl, ?_, ?_, rfl⟩
        · rw [PQ.drop_zero h.core.holes]
          have hsp : q.spoil = { q with items := { it with stored := 0 } :: rest } := by
            simp [PQ.spoil, hc, hi]
          refine ⟨?_, ⟨hz.ow, hz.xb, hz.inv, hz.mem, hz.holes, hz.cpos⟩, ?_, ?_, h.hdr, h.parked⟩
          · rw [hsp]; exact h.crc
          · rw [hsp]; exact h.producer
          · rw [hsp]
            refine ⟨by simp, rfl⟩
        · have hl := hz.mem { it with stored := 0 } (by
            have : q.spoil = { q with items := { it with stored := 0 } :: rest } := by
              simp [PQ.spoil, hc, hi]
            rw [this]; simp [PQ.live])
          rw [PQ.spoil_hb] at hl
          exact hl.1
      · have hpf : q.passes K it = false := by simpa using hp
        rw [if_neg (fun e => hp (hchk.1 e))]
        -- the corrupt record is finished
        have hsp : q.spoil = { q with items := { it with stored := 0 } :: rest } := by
          simp [PQ.spoil, hc, hi]
        let c2 : Core := spoilStats (s.core.zeroExtra it.start)
        have hq2 : QInv c2 q.spoil := hz.frame _ _ _ _ _
        have hq3 := hq2.finish (it := { it with stored := 0 }) (rest := rest) (by rw [hsp]) s.hasWrite
        have hdr1 : q.spoil.drop 1 = q.drop 1 := by
          rw [hsp]; simp [PQ.drop, hi]
        rw [hdr1] at hq3
        have hq3 : QInv (c2.finishRead s.hasWrite (it.range q.hb)).1 (q.drop 1) := by
          have e : ({ it with stored := 0 } : Item).range q.spoil.hb = it.range q.hb := by
            rw [PQ.spoil_hb]; rfl
          rw [e] at hq3; exact hq3
        have hpop := (hq2.pop (it := { it with stored := 0 }) (rest := rest) (by rw [hsp])).inv.pend
        have hkeep := finishRead_keep c2 s.hasWrite (it.range q.hb) (by
          rw [PQ.spoil_hb] at hpop; exact hpop)
        have hs3 : NVSim K (({ s with core := (c2.finishRead s.hasWrite (it.range q.hb)).1 }).syncHdr K)
            (q.drop 1) := by
          refine ⟨h.crc, hq3, h.producer, ?_, rfl, ?_⟩
          · have : (q.drop 1).reader = some (.plain false) := hr
            simp only [readerOk, this]; exact hcons
          · exact parked_keep (s := s) h.parked hkeep.1 hkeep.2.1 hkeep.2.2.1 hkeep.2.2.2
        have hi3 : (q.drop 1).items = rest := by simp [PQ.drop, hi]
        have ihh := ih fuel _ (q.drop 1) hs3 hi3 hr (by simp at hf; omega)
        rw [PQ.passes_drop, hi3] at ihh
        rw [hi, List.find?_cons]
        simp only [hpf]
        have hbad : q.bad K = 1 + (q.drop 1).bad K := by
          simp only [PQ.bad, PQ.passes_drop, hi3, hi, List.takeWhile_cons, hpf]
          simp; omega
        have hcnt : (c2.finishRead s.hasWrite (it.range q.hb)).1.stats.recordsCorrupted =
            s.core.stats.recordsCorrupted + 1 := finishRead_corrupted _ _ _
        cases hfd : rest.find? (q.passes K) with
        | none =>
          rw [hfd] at ihh
          obtain ⟨s', r, e1, e2, e3, e4⟩ := ihh
          refine ⟨s', r, e1, ?_, e3, ?_⟩
          rotate_left
          · rw [e4, hbad]
            show (c2.finishRead s.hasWrite (it.range q.hb)).1.stats.recordsCorrupted + _ = _
            omega
          rw [PQ.drop_drop] at e2
          rw [List.length_cons, Nat.add_comm]; exact e2
        | some x =>
          rw [hfd] at ihh
          obtain ⟨s', e1, e2, e3, e4⟩ := ihh
          refine ⟨s', e1, ?_, e3, ?_⟩
          rotate_left
          · rw [e4, hbad]
            show (c2.finishRead s.hasWrite (it.range q.hb)).1.stats.recordsCorrupted + _ = _
            omega
          rw [PQ.drop_drop] at e2
          rw [hbad]; exact e2

/-! ### Reservations -/

theorem QInv.apart' {c : Core} {q : PQ} (h : QInv c q) {A B : List Item} {a b : Item}
    (hl : q.live = A ++ B) (ha : a ∈ A) (hb : b ∈ B) :
    a.start + a.size + q.hb ≤ b.start ∨ b.start + b.size + q.hb ≤ a.start := by
  have := h.layout.pairwise
  rw [hl, List.map_append, List.pairwise_append] at this
  have := this.2.2 _ (List.mem_map_of_mem ha) _ (List.mem_map_of_mem hb)
  simp only [Disj, Range.stop, Item.range] at this
  omega

theorem QInv.fuel {c : Core} {q : PQ} (h : QInv c q) : q.items.length < c.advanceFuel := by
  have := layout_length h.layout
  simp only [List.length_map, PQ.live, List.length_append] at this
  simp only [Core.advanceFuel]
  omega

/-- The queue with a reservation of `size` bytes at `start`. -/
def PQ.withPend (q : PQ) (it : Item) : PQ := { q with producer := some (some it) }

/-- Space was made: `n` items were dropped, and nothing is in the way any more. -/
theorem QInv.grant {c : Core} {q : PQ} (h : QInv c q) (hp : q.producer = some none) {size : Nat}
    (h0 : 0 < size) (hn : size + c.xb ≤ c.len)
    (hfree : ∀ it ∈ q.items, needs c.len c.nws (size + c.xb) (it.range q.hb) = false) :
    QInv (c.applyReservation (c.calcNextWriteStart (size + c.xb)) size)
      (q.withPend ⟨placeOf c.len c.nws (size + c.xb), size,
        readMem c.mem (placeOf c.len c.nws (size + c.xb) + q.hb) size, 0⟩) := by
  have hpend : q.pend = [] := by simp [PQ.pend, hp]
  have hxb4 := h.inv.xb4
  -- holes are not in the way either
  have hfreeH : ∀ it ∈ q.holes, needs c.len c.nws (size + c.xb) (it.range q.hb) = false := by
    intro it hit
    cases hi : q.items with
    | nil => rw [h.holes hi] at hit; cases hit
    | cons a rest =>
      have hl := h.layout
      rw [PQ.live, hi, hpend] at hl
      simp only [List.append_nil, List.cons_append, List.map_cons] at hl
      exact needs_head hn hl (hfree a (by simp [hi])) _
        (List.mem_map_of_mem (List.mem_append_right _ hit))
  have hfree' : ∀ r ∈ q.items.map (Item.range q.hb) ++ (q.holes ++ q.pend).map (Item.range q.hb),
      needs c.len c.nws (size + c.xb) r = false := by
    intro r hr
    rw [hpend, List.append_nil] at hr
    rcases List.mem_append.1 hr with hr | hr
    · obtain ⟨x, hx, rfl⟩ := List.mem_map.1 hr; exact hfree x hx
    · obtain ⟨x, hx, rfl⟩ := List.mem_map.1 hr; exact hfreeH x hx
  have hinv := h.inv.applyReservation h0 hn hfree'
  have hmemEq := applyReservation_mem c size (by omega) hxb4
  have heq := applyReservation_eq c size (by omega)
  refine ⟨?_, ?_, ?_, ?_, h.holes, ?_⟩
  · rw [heq]; exact h.ow
  · rw [heq]; exact h.xb
  · rw [hpend, List.append_nil] at hinv
    have e : (⟨placeOf c.len c.nws (size + c.xb), size + c.xb⟩ : Range) =
        Item.range q.hb ⟨placeOf c.len c.nws (size + c.xb), size,
          readMem c.mem (placeOf c.len c.nws (size + c.xb) + q.hb) size, 0⟩ := by
      rw [Item.range, h.xb]
    rw [e] at hinv
    have e2 : ∀ it, (q.withPend it).holes ++ (q.withPend it).pend = q.holes ++ [it] := fun _ => rfl
    rw [e2, List.map_append]
    exact hinv
  · intro x hx
    have hx : x ∈ (q.items ++ q.holes) ++ [⟨placeOf c.len c.nws (size + c.xb), size,
        readMem c.mem (placeOf c.len c.nws (size + c.xb) + q.hb) size, 0⟩] := hx
    show ItemMem _ q.hb q.crc x
    rcases List.mem_append.1 hx with hx | hx
    · have hnx : needs c.len c.nws (size + c.xb) (x.range q.hb) = false := by
        rcases List.mem_append.1 hx with hx | hx
        · exact hfree x hx
        · exact hfreeH x hx
      have hd := disj_of_not_needs (r := x.range q.hb)
        (by simp only [Item.range]; have := PQ.hb_ge q; omega) (by omega) hnx
      simp only [Disj, Range.stop, Item.range] at hd
      have hge := PQ.hb_ge q
      refine (h.mem x (by simp only [PQ.live, hpend, List.append_nil]; exact hx)).congr
        (fun i h1 h2 => (hmemEq i ?_).symm) (fun _ i h1 h2 => (hmemEq i ?_).symm)
      · omega
      · omega
    · simp only [List.mem_singleton] at hx
      subst hx
      refine ⟨?_, fun hc => ?_⟩
      · apply readMem_congr
        intro i hi
        refine hmemEq _ (Or.inr ?_)
        rw [h.xb]; simp only; omega
      · have hxb : c.xb = 8 := by rw [h.xb, PQ.hb_crc hc]
        rw [heq]
        simp only [hxb]
        have := readMem_writeMem_same (writeMem c.mem (placeOf c.len c.nws (size + 8) + (8 - 4))
          (le32 size)) (placeOf c.len c.nws (size + 8)) (List.replicate (8 - 4) 0)
        simp only [List.length_replicate] at this
        rw [show (8 - 4 : Nat) = 4 from rfl] at this ⊢
        rw [this]; rfl
  · intro k hk
    obtain ⟨h1, h2⟩ := h.cpos k hk
    refine ⟨h1, ?_⟩
    rw [heq]; exact h2

/-- The overwrite loop drops the items in the way. -/
theorem QInv.makeRoom {c : Core} {q : PQ} (h : QInv c q) (hp : q.producer = some none) {size : Nat}
    (h0 : 0 < size) (hn : size + c.xb ≤ c.len) (ho : q.overwrite = true) (busy block : Bool) :
    ∃ n c', n ≤ q.items.length ∧
      c.advanceForWrite busy (c.calcNextWriteStart (size + c.xb)) block c.advanceFuel = (c', .ok ()) ∧
      c'.xb = c.xb ∧ c'.len = c.len ∧ c'.nws = c.nws ∧
      (∀ it rest, q.items = it :: rest →
        needs c.len c.nws (size + c.xb) (it.range q.hb) = false → n = 0) ∧
      QInv c' (q.drop n) ∧
      (∀ it ∈ (q.drop n).items, needs c'.len c'.nws (size + c'.xb) (it.range q.hb) = false) := by
  have hpend : q.pend = [] := by simp [PQ.pend, hp]
  have hfuel : (q.items.map (Item.range q.hb)).length < c.advanceFuel := by
    rw [List.length_map]; exact h.fuel
  obtain ⟨V', K', c', e1, e2, e3, e4, e5, e6, m, a, b, l, e7⟩ :=
    h.inv.advanceForWrite busy block c.advanceFuel (by rw [h.ow]; exact ho) (n := size + c.xb)
      (by omega) hn hfuel _ rfl
  obtain ⟨V, W, hVW, rfl, rfl⟩ := map_split e1
  have hdrop : q.items.drop V.length = W := by rw [hVW]; simp
  have hxb' : c'.xb = c.xb := by rw [e7]
  have hlen' : c'.len = c.len := by rw [e7]
  have hnws' : c'.nws = c.nws := by rw [e7]
  have hqi : (q.drop V.length).items = W := hdrop
  refine ⟨V.length, c', by rw [hVW]; simp, e4, hxb', hlen', hnws', ?_, ?_, ?_⟩
  · intro it rest hi hnd
    cases V with
    | nil => rfl
    | cons v V =>
      rw [hVW] at hi
      simp only [List.cons_append, List.cons.injEq] at hi
      have := e2 (v.range q.hb) (by simp)
      rw [hi.1, hnd] at this
      cases this
  · refine ⟨by rw [e7]; exact h.ow, by rw [e7]; exact h.xb, ?_, ?_, ?_, ?_⟩
    · rw [PQ.drop_hb, PQ.drop_pend, hqi]
      have hh : (q.drop V.length).holes = holesAfter W q.holes := by
        simp only [PQ.drop, hdrop]
      rw [hh]
      cases W with
      | nil =>
        rw [holesAfter_nil, List.nil_append]
        rw [List.map_append] at e5
        exact e5.forget
      | cons w W => rw [holesAfter_cons]; exact e5
    · intro x hx
      have hxl := PQ.drop_live hx
      have hlive : q.live = V ++ (W ++ q.holes ++ q.pend) := by
        simp [PQ.live, hVW]
      have hx2 : x ∈ W ++ q.holes ++ q.pend := by
        simp only [PQ.live, PQ.drop_pend, hqi, List.mem_append] at hx ⊢
        rcases hx with (hx | hx) | hx
        · exact Or.inl (Or.inl hx)
        · refine Or.inl (Or.inr ?_)
          simp only [PQ.drop, holesAfter] at hx
          split at hx
          · cases hx
          · exact hx
        · exact Or.inr hx
      have hxb4 := h.inv.xb4
      have hsame : ∀ i, x.start ≤ i → i < x.start + x.size + q.hb → c'.mem i = c.mem i := by
        intro i h1 h2
        refine e6 i (fun r hr => ?_)
        obtain ⟨v, hv, rfl⟩ := List.mem_map.1 hr
        have := h.apart' hlive hv hx2
        have hxx := h.xb
        simp only [Item.range]
        omega
      have hge := PQ.hb_ge q
      exact (h.mem x hxl).congr (fun i h1 h2 => (hsame i (by omega) (by omega)).symm)
        (fun _ i h1 h2 => (hsame i (by omega) (by omega)).symm)
    · intro e
      have e : q.items.drop V.length = [] := e
      show holesAfter (q.items.drop V.length) q.holes = []
      rw [e]; rfl
    · have : c'.ncrs = c.ncrs := by rw [e7]
      rw [this]
      exact drop_cpos h.cpos
  · intro it hit
    rw [hqi] at hit
    rw [hxb', hlen', hnws']
    cases W with
    | nil => cases hit
    | cons w W =>
      have hw := e3 (w.range q.hb) (by simp)
      rcases List.mem_cons.1 hit with rfl | hit
      · exact hw
      · have hl := h.layout
        rw [PQ.live, hVW] at hl
        simp only [List.append_assoc, List.map_append, List.map_cons, List.cons_append] at hl
        exact needs_head hn (Layout.dropPrefix hl) hw _
          (List.mem_append_left _ (List.mem_map_of_mem hit))

theorem NVSim.producerNone {K : Crc} {s : NV} {q : PQ} (h : NVSim K s q) (hp : s.producer = some none) :
    q.producer = some none := by
  have := h.producer
  rw [hp] at this
  cases hq : q.producer with
  | none => simp [hq] at this
  | some x =>
    cases x with
    | none => rfl
    | some y => simp [hq] at this

theorem readerOk_pend {q : PQ} {c : Option Cons} (h : readerOk q c) (it : Item) :
    readerOk (q.withPend it) c := h

theorem needsHead {K : Crc} {s : NV} {q : PQ} (h : NVSim K s q) {size : Nat} (h0 : 0 < size)
    (hn : size + s.core.xb ≤ s.core.len) {it : Item} (hit : it ∈ q.live) :
    s.core.intersectReservation (s.core.calcNextWriteStart (size + s.core.xb)) (it.range q.hb) =
      needs s.core.len s.core.nws (size + s.core.xb) (it.range q.hb) := by
  have h1 := h.core.itemIn hit
  exact intersectReservation_eq s.core _ _ (by omega) hn h.core.inv.layout.1
    (by simp only [Item.range]; omega) (by simp only [Item.range, Range.stop]; omega)

theorem takeSpace_sim {K : Crc} {s : NV} {q : PQ} (h : NVSim K s q) (hp : s.producer = some none)
    {size : Nat} (h0 : 0 < size) (hn : size + s.core.xb ≤ s.core.len) (block : Bool)
    (hr : q.overwrite = true → q.reader = some (.plain true) →
      s.readHit (s.core.calcNextWriteStart (size + s.core.xb)) = false) :
    ∃ q', NVSim K (s.takeSpace K (s.core.calcNextWriteStart (size + s.core.xb)) size block).1 q' ∧
      q.reserve q' (s.takeSpace K (s.core.calcNextWriteStart (size + s.core.xb)) size block).2 ∧
      q'.broken = q.broken := by
  have hqp := h.producerNone hp
  have hgrant : ∀ (n : Nat) (c' : Core), n ≤ q.items.length → c'.xb = s.core.xb →
      c'.len = s.core.len → c'.nws = s.core.nws → QInv c' (q.drop n) →
      (n = 0 ∨ (q.overwrite = true ∧ q.reader ≠ some (.plain true) ∧ n ≤ q.items.length)) →
      (∀ it ∈ (q.drop n).items, needs c'.len c'.nws (size + c'.xb) (it.range q.hb) = false) →
      ∃ q', NVSim K (({ s with core := c' }).grant K
          (s.core.calcNextWriteStart (size + s.core.xb)) size) q' ∧
        q.reserve q' (.ok ⟨(s.core.calcNextWriteStart (size + s.core.xb)).range.start + c'.xb, size⟩) ∧
        q'.broken = q.broken := by
    intro n c' hnle hx hl hw hq hallow hfree
    have hcalc : s.core.calcNextWriteStart (size + s.core.xb) = c'.calcNextWriteStart (size + c'.xb) := by
      simp only [Core.calcNextWriteStart, hx, hl, hw]
    have hg := hq.grant (show (q.drop n).producer = some none from hqp) h0 (by rw [hx, hl]; exact hn)
      (by rw [PQ.drop_hb]; exact hfree)
    rw [PQ.drop_hb] at hg
    refine ⟨(q.drop n).withPend ⟨placeOf c'.len c'.nws (size + c'.xb), size,
        readMem c'.mem (placeOf c'.len c'.nws (size + c'.xb) + q.hb) size, 0⟩,
      ⟨h.crc, ?_, ?_, ?_, rfl, ?_⟩, Or.inr ⟨hqp, n, _, size, _, hallow, ?_, rfl, ?_⟩, rfl⟩
    rotate_left
    · show some (some (s.core.calcNextWriteStart (size + s.core.xb)).range) = _
      rw [hcalc, calc_range]
      simp only [PQ.withPend, Option.map_some, Item.range]
      rw [show ∀ p, ({ q.drop n with producer := p } : PQ).hb = q.hb from fun _ => rfl, ← h.core.xb, ← hx]
    · -- the reader keeps its reservation
      have hro := h.reader
      rcases hallow with rfl | ⟨how, hnr, _⟩
      · have := readerOk_pend hro
        rw [← PQ.drop_zero h.core.holes] at this
        exact this _
      · show readerOk _ s.consumer
        unfold readerOk at hro ⊢
        simp only [PQ.drop]
        cases hrd : q.reader with
        | none => rw [hrd] at hro; exact hro
        | some rd =>
          rw [hrd] at hro
          cases rd with
          | plain bb =>
            cases bb with
            | false => exact hro
            | true => exact absurd hrd hnr
          | cursor k =>
            obtain ⟨_, _, h3, _⟩ := hro
            rw [how] at h3; cases h3
    · intro p hpk; cases hpk
    · exact readMem_length _ _ _
    · rw [hcalc, calc_range, hx, h.core.xb]
    · rw [← hcalc] at hg; exact hg
  cases ho : q.overwrite with
  | true =>
    obtain ⟨n, c', hnle, e, hx, hl, hw, hz, hq, hfree⟩ :=
      h.core.makeRoom hqp h0 hn ho (s.hasRead || s.hasWrite) block
    have : s.takeSpace K (s.core.calcNextWriteStart (size + s.core.xb)) size block =
        (({ s with core := c' }).grant K (s.core.calcNextWriteStart (size + s.core.xb)) size,
          .ok ⟨(s.core.calcNextWriteStart (size + s.core.xb)).range.start + c'.xb, size⟩) := by
      unfold NV.takeSpace
      rw [e]
    rw [this]
    refine hgrant n c' hnle hx hl hw hq ?_ hfree
    by_cases hrd : q.reader = some (.plain true)
    · left
      have hh := hr ho hrd
      have hro := h.reader
      simp only [readerOk, hrd] at hro
      cases hi : q.items with
      | nil => exact absurd hi hro.1
      | cons it rest =>
        refine hz it rest hi ?_
        rw [hi] at hro
        simp only [List.head?_cons, Option.map_some] at hro
        simp only [NV.readHit, NV.readRange, hro.2] at hh
        rw [needsHead h h0 hn (PQ.items_live (by simp [hi]))] at hh
        exact hh
    · exact Or.inr ⟨ho, hrd, hnle⟩
  | false =>
    have hb := h.core.inv.advanceForWriteBlock (by rw [h.core.ow]; exact ho)
      (n := size + s.core.xb) (by omega) hn (s.hasRead || s.hasWrite) block (2 * s.core.len + 3)
    cases hres : s.core.advanceForWrite (s.hasRead || s.hasWrite)
        (s.core.calcNextWriteStart (size + s.core.xb)) block s.core.advanceFuel with
    | mk c' r =>
      have hres' := hres
      rw [show s.core.advanceFuel = 2 * s.core.len + 3 + 1 from rfl] at hres'
      rw [hres'] at hb
      obtain ⟨hb1, hb2⟩ := hb
      simp only at hb1 hb2
      subst hb1
      cases r with
      | ok u =>
        have hhead := hb2 rfl
        have : s.takeSpace K (s.core.calcNextWriteStart (size + s.core.xb)) size block =
            (({ s with core := s.core }).grant K (s.core.calcNextWriteStart (size + s.core.xb)) size,
              .ok ⟨(s.core.calcNextWriteStart (size + s.core.xb)).range.start + s.core.xb, size⟩) := by
          unfold NV.takeSpace
          rw [hres]
        rw [this]
        refine hgrant 0 s.core (Nat.zero_le _) rfl rfl rfl ?_ (Or.inl rfl) ?_
        · rw [PQ.drop_zero h.core.holes]; exact h.core
        · rw [PQ.drop_zero h.core.holes]
          intro it hit
          cases hi : q.items with
          | nil => rw [hi] at hit; cases hit
          | cons a rest =>
            rw [hi] at hit hhead
            have ha := hhead (a.range q.hb) rfl
            rcases List.mem_cons.1 hit with rfl | hit
            · exact ha
            · have hl := h.core.layout
              rw [PQ.live, hi] at hl
              simp only [List.append_assoc, List.map_append, List.map_cons, List.cons_append] at hl
              exact needs_head hn hl ha _ (List.mem_append_left _ (List.mem_map_of_mem hit))
      | err e =>
        have : s.takeSpace K (s.core.calcNextWriteStart (size + s.core.xb)) size block =
            ({ s.withCore K s.core with parked := none }, .err e) := by
          unfold NV.takeSpace
          rw [hres]
        rw [this, withCore_same rfl]
        exact ⟨q, ⟨h.crc, h.core, h.producer, h.reader, h.hdr, fun p hp => by cases hp⟩,
          Or.inl ⟨rfl, by simp⟩, rfl⟩
      | blocked =>
        have : s.takeSpace K (s.core.calcNextWriteStart (size + s.core.xb)) size block =
            ({ s with parked := some ⟨s.core.calcNextWriteStart (size + s.core.xb), size, block, false⟩ },
              .blocked) := by
          unfold NV.takeSpace
          rw [hres]
        rw [this]
        refine ⟨q, ⟨h.crc, h.core, h.producer, h.reader, h.hdr, fun p hpp => ?_⟩,
          Or.inl ⟨rfl, by simp⟩, rfl⟩
        simp only [Option.some.injEq] at hpp
        subst hpp
        exact ⟨hp, h0, hn, rfl, fun _ => by rw [h.core.ow]; exact ho⟩

theorem passReader_sim {K : Crc} {s : NV} {q : PQ} (h : NVSim K s q) (hp : s.producer = some none)
    {size : Nat} (h0 : 0 < size) (hn : size + s.core.xb ≤ s.core.len) (block : Bool) :
    ∃ q', NVSim K (s.passReader K (s.core.calcNextWriteStart (size + s.core.xb)) size block).1 q' ∧
      q.reserve q' (s.passReader K (s.core.calcNextWriteStart (size + s.core.xb)) size block).2 ∧
      q'.broken = q.broken := by
  unfold NV.passReader
  by_cases hh : s.readHit (s.core.calcNextWriteStart (size + s.core.xb)) = true
  · rw [if_pos hh]
    by_cases hb : s.blockOnRead = true
    · rw [if_pos hb]
      refine ⟨q, ⟨h.crc, h.core, h.producer, h.reader, h.hdr, fun p hpp => ?_⟩,
        Or.inl ⟨rfl, by simp⟩, rfl⟩
      simp only [Option.some.injEq] at hpp
      subst hpp
      exact ⟨hp, h0, hn, rfl, fun e => by cases e⟩
    · rw [if_neg hb]
      have := h.frame (s.core.refused size).stats s.core.drain s.core.readable s.core.lockCount
        s.core.shutdown
      exact ⟨q, ⟨this.crc, this.core, this.producer, this.reader, this.hdr, fun p hp => by cases hp⟩,
        Or.inl ⟨rfl, by simp⟩, rfl⟩
  · rw [if_neg hh]
    exact takeSpace_sim h hp h0 hn block (fun _ _ => by simpa using hh)

theorem reserve_sim {K : Crc} {s : NV} {q : PQ} (h : NVSim K s q) (size : Nat) (block : Bool) :
    ∃ q', NVSim K (s.reserve K size block).1 q' ∧ q.reserve q' (s.reserve K size block).2 ∧
      q'.broken = q.broken := by
  have hsame : ∀ e : Code, ∃ q', NVSim K s q' ∧ q.reserve q' (.err e) ∧ q'.broken = q.broken :=
    fun e => ⟨q, h, Or.inl ⟨rfl, by simp⟩, rfl⟩
  cases hp : s.producer with
  | none =>
    have : s.reserve K size block = (s, .err .failedPrecondition) := by simp [NV.reserve, hp]
    rw [this]; exact hsame _
  | some x =>
    cases x with
    | some r =>
      have : s.reserve K size block = (s, .err .invalidArgument) := by simp [NV.reserve, hp]
      rw [this]; exact hsame _
    | none =>
      have hst : (∃ st e, s.core.startReserve size = ({ s.core with stats := st }, .error e)) ∨
          (s.core.startReserve size = (s.core, .ok (size + s.core.xb)) ∧ 0 < size ∧
            size + s.core.xb ≤ s.core.len) := by
        unfold Core.startReserve
        split
        · exact Or.inl ⟨_, _, rfl⟩
        · split
          · exact Or.inl ⟨_, _, rfl⟩
          · split
            · exact Or.inl ⟨_, _, rfl⟩
            · exact Or.inr ⟨rfl, by omega, by omega⟩
      rcases hst with ⟨st, e, hst⟩ | ⟨hst, h0, hn⟩
      · have : s.reserve K size block = ({ s with core := { s.core with stats := st } }, .err e) := by
          simp [NV.reserve, hp, hst]
        rw [this]
        exact ⟨q, h.frame st s.core.drain s.core.readable s.core.lockCount s.core.shutdown,
          Or.inl ⟨rfl, by simp⟩, rfl⟩
      · have : s.reserve K size block =
            s.passReader K (s.core.calcNextWriteStart (size + s.core.xb)) size block := by
          unfold NV.reserve
          split
          · rename_i e; rw [hp] at e; cases e
          · rename_i e; rw [hp] at e; cases e
          · rw [hst]
        rw [this]
        exact passReader_sim h hp h0 hn block

theorem resume_sim {K : Crc} {s : NV} {q : PQ} (h : NVSim K s q) :
    ∃ q', NVSim K (s.resume K).1 q' ∧ q.reserve q' (s.resume K).2 ∧ q'.broken = q.broken := by
  cases hpk : s.parked with
  | none =>
    have : s.resume K = (s, .err .invalidArgument) := by simp [NV.resume, hpk]
    rw [this]
    exact ⟨q, h, Or.inl ⟨rfl, by simp⟩, rfl⟩
  | some p =>
    obtain ⟨hp, h0, hn, ht, hov⟩ := h.parked p hpk
    have e : s.resume K = if s.core.shutdown then ({ s with parked := none }, .err .aborted)
        else if p.onRead then s.passReader K p.t p.size p.block
        else s.takeSpace K p.t p.size p.block := by
      simp [NV.resume, hpk]
    rw [e]
    by_cases hs : s.core.shutdown = true
    · rw [if_pos hs]
      exact ⟨q, ⟨h.crc, h.core, h.producer, h.reader, h.hdr, fun p hp => by cases hp⟩,
        Or.inl ⟨rfl, by simp⟩, rfl⟩
    · rw [if_neg hs]
      by_cases ho : p.onRead = true
      · rw [if_pos ho, ht]
        exact passReader_sim h hp h0 hn p.block
      · rw [if_neg ho, ht]
        refine takeSpace_sim h hp h0 hn p.block (fun e _ => ?_)
        have := hov (by simpa using ho)
        rw [h.core.ow, e] at this
        cases this

end Verif.Buffer
