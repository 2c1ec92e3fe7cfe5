import Verif.Buffer.CoreLemmas
import Verif.Buffer.NVSpec

/-
Simulation between the persistent ring buffer and its queue specification.  Helper lemmas only.
-/
namespace Verif.Buffer

/-! ### Additions to the lemmas about the index bookkeeping -/

theorem Layout.dropPrefix {len nws : Nat} {lweb : Option Nat} {A B : List Range}
    (h : Layout len nws lweb (A ++ B)) : Layout len nws lweb B := by
  induction A with
  | nil => exact h
  | cons a A ih => exact ih (Layout.tail h)

/-- Unreachable reservations are forgotten. -/
theorem CoreInv.forget {c : Core} {H P : List Range} (h : CoreInv c [] (H ++ P)) :
    CoreInv c [] P := by
  obtain ⟨h1, h2, h3, h4, h5, h6, h7, h8⟩ := h
  exact ⟨h1, h2, Layout.dropPrefix (A := H) h3, h4, h5,
    fun r hr => h6 r (by simp at hr ⊢; exact Or.inr hr), h7, h8⟩

/-- Commit of the newest reservation, older ones being abandoned. -/
theorem CoreInv.commitLast {c : Core} {U H : List Range} {r : Range}
    (h : CoreInv c U (H ++ [r])) (hH : U = [] → H = []) :
    CoreInv (c.advanceCommitted r) (U ++ H ++ [r]) [] := by
  obtain ⟨h1, h2, h3, h4, h5, h6, h7, h8⟩ := h
  refine ⟨h1, h2, by simpa [Core.advanceCommitted] using h3, ?_, by simp [Core.advanceCommitted], ?_,
    h7, h8⟩
  · simp only [Core.advanceCommitted, h4]
    cases U with
    | nil => simp [hH rfl]
    | cons u U => simp
  · intro x hx
    exact h6 x (by simpa [List.append_assoc] using hx)

/-- Memory changes that leave the size fields alone. -/
theorem CoreInv.memCongr {c : Core} {U O : List Range} {m : Mem} (h : CoreInv c U O)
    (hm : ∀ r ∈ U ++ O, ∀ i, i < 4 → m (r.start + (c.xb - 4) + i) = c.mem (r.start + (c.xb - 4) + i)) :
    CoreInv { c with mem := m } U O := by
  obtain ⟨h1, h2, h3, h4, h5, h6, h7, h8⟩ := h
  refine ⟨h1, h2, h3, h4, h5, fun r hr => ?_, h7, h8⟩
  obtain ⟨e1, e2⟩ := h6 r hr
  refine ⟨e1, ?_⟩
  rw [← e2]
  congr 2
  exact readMem_congr (hm r hr)

/-- Fields `CoreInv` does not look at. -/
theorem CoreInv.frame {c c' : Core} {U O : List Range} (h : CoreInv c U O)
    (e1 : c'.len = c.len) (e2 : c'.xb = c.xb) (e3 : c'.mem = c.mem) (e4 : c'.nws = c.nws)
    (e5 : c'.cws = c.cws) (e6 : c'.lweb = c.lweb) (e7 : c'.nrs = c.nrs)
    (e8 : c'.pendingReset = c.pendingReset) (e9 : c'.panicked = c.panicked) : CoreInv c' U O := by
  obtain ⟨h1, h2, h3, h4, h5, h6, h7, h8⟩ := h
  refine ⟨by rw [e2]; exact h1, by rw [e1]; exact h2, by rw [e1, e4, e6]; exact h3,
    by rw [e7]; exact h4, by rw [e5]; exact h5, ?_, by rw [e8]; exact h7, by rw [e9]; exact h8⟩
  rw [e3, e2]; exact h6

/-- Without overwriting, a reservation goes ahead only if the oldest record is not in the way, and
nothing changes otherwise. -/
theorem CoreInv.advanceForWriteBlock {c : Core} {U O : List Range} {n : Nat} (h : CoreInv c U O)
    (ho : c.overwrite = false) (hn0 : 0 < n) (hn : n ≤ c.len) (busy block : Bool) (fuel : Nat) :
    (c.advanceForWrite busy (c.calcNextWriteStart n) block (fuel + 1)).1 = c ∧
    ((c.advanceForWrite busy (c.calcNextWriteStart n) block (fuel + 1)).2 = .ok () →
      ∀ r, U.head? = some r → needs c.len c.nws n r = false) := by
  cases U with
  | nil =>
    have : c.nrs = none := by simpa using h.nrs
    simp [Core.advanceForWrite, this]
  | cons r U =>
    have hnrs : c.nrs = some r.start := by simpa using h.nrs
    have hmem : r ∈ r :: U ++ O := by simp
    have hload := h.loadSize hmem
    have hr1 := (h.layout.mem hmem).1
    have hr2 := (h.hdr r hmem).1
    have hsz : r.size - c.xb + c.xb = r.size := by omega
    have hint : c.intersectReservation (c.calcNextWriteStart n) ⟨r.start, r.size - c.xb + c.xb⟩ =
        needs c.len c.nws n r := by
      rw [hsz]
      exact intersectReservation_eq c n r hn0 hn h.layout.1 (by omega) hr1
    by_cases hneed : needs c.len c.nws n r = true
    · unfold Core.advanceForWrite
      simp only [hnrs, hload, hint, hneed, if_true, ho, Bool.not_false]
      cases block
      · simp
      · cases c.shutdown <;> simp
    · unfold Core.advanceForWrite
      simp only [hnrs, hload, hint, hneed]
      refine ⟨rfl, fun _ x hx => ?_⟩
      simp at hx; subst hx; simpa using hneed

/-- The cursor moves to the next record. -/
theorem CoreInv.advanceCursor {c : Core} {A B O : List Range} {r : Range}
    (h : CoreInv c (A ++ r :: B) O) (hc : c.ncrs = some r.start) :
    c.advanceCursor r.size = { c with ncrs := B.head?.map (·.start) } := by
  have hl : Layout c.len c.nws c.lweb (r :: (B ++ O)) := by
    refine Layout.dropPrefix (A := A) ?_
    simpa using h.layout
  cases B with
  | nil =>
    have hcws : c.cws = some r.start := by simpa using h.cws
    simp [Core.advanceCursor, hc, hcws]
  | cons r' B =>
    have hlast : ∃ q, (A ++ r :: r' :: B).getLast? = some q ∧ q ∈ r' :: B := by
      refine ⟨(r' :: B).getLast (by simp), ?_, List.getLast_mem _⟩
      rw [List.getLast?_append, List.getLast?_cons_cons]
      simp [List.getLast?_eq_some_getLast]
    obtain ⟨q, hq, hqm⟩ := hlast
    have hcws : c.cws = some q.start := by rw [h.cws, hq]; rfl
    have hne : r.start ≠ q.start := hl.head_ne (by
      exact List.mem_append_left _ hqm)
    have hn := Layout.next (L := B ++ O) hl
    by_cases hw : c.lweb = some (r.start + r.size - 1)
    · have := (hn.1 hw).1
      simp [Core.advanceCursor, hc, hcws, hne, hw, this]
    · have := hn.2 hw
      simp [Core.advanceCursor, hc, hcws, hne, hw, this]

/-! ### Bytes -/

theorem le32_ofLe32 (bs : List UInt8) (h : bs.length = 4) : le32 (ofLe32 bs) = bs := by
  match bs, h with
  | [a, b, c, d], _ =>
    have ha := a.toNat_lt
    have hb := b.toNat_lt
    have hc := c.toNat_lt
    have hd := d.toNat_lt
    simp only [le32, ofLe32, List.getD_cons_zero, List.getD_cons_succ]
    have key : ∀ (x : UInt8) (n : Nat), n % 256 = x.toNat → UInt8.ofNat n = x := by
      intro x n hn
      apply UInt8.toNat.inj
      rw [UInt8.toNat_ofNat']
      exact hn
    rw [key a _ (by omega), key b _ (by omega), key c _ (by omega), key d _ (by omega)]

theorem ofLe32_lt (bs : List UInt8) : ofLe32 bs < 2 ^ 32 := by
  have h : ∀ i, (bs.getD i 0).toNat < 256 := fun i => UInt8.toNat_lt _
  have := h 0
  have := h 1
  have := h 2
  have := h 3
  simp only [ofLe32]
  omega

theorem readMem_append (m : Mem) (off a b : Nat) :
    readMem m off (a + b) = readMem m off a ++ readMem m (off + a) b := by
  apply List.ext_getElem?
  intro i
  by_cases h : i < a
  · rw [readMem_getElem? _ _ _ _ (by omega), List.getElem?_append_left (by rw [readMem_length]; exact h),
      readMem_getElem? _ _ _ _ h]
  · by_cases h2 : i < a + b
    · rw [readMem_getElem? _ _ _ _ h2, List.getElem?_append_right (by rw [readMem_length]; omega),
        readMem_length, readMem_getElem? _ _ _ _ (by omega)]
      congr 2; omega
    · rw [List.getElem?_eq_none (by rw [readMem_length]; omega),
        List.getElem?_eq_none (by rw [List.length_append, readMem_length, readMem_length]; omega)]

/-! ### Items in memory -/

def Item.range (hb : Nat) (it : Item) : Range := ⟨it.start, it.size + hb⟩

/-- The bytes of the item are in memory. -/
def ItemMem (m : Mem) (hb : Nat) (crc : Bool) (it : Item) : Prop :=
  readMem m (it.start + hb) it.size = it.data ∧
    (crc = true → ofLe32 (readMem m it.start 4) = it.stored)

theorem ItemMem.congr {m m' : Mem} {hb : Nat} {crc : Bool} {it : Item} (h : ItemMem m hb crc it)
    (he1 : ∀ i, it.start + hb ≤ i → i < it.start + hb + it.size → m i = m' i)
    (he2 : crc = true → ∀ i, it.start ≤ i → i < it.start + 4 → m i = m' i) :
    ItemMem m' hb crc it := by
  refine ⟨?_, fun hc => ?_⟩
  · rw [← h.1]
    apply readMem_congr
    intro i hi
    exact (he1 _ (by omega) (by omega)).symm
  · rw [← h.2 hc]
    congr 1
    apply readMem_congr
    intro i hi
    exact (he2 hc _ (by omega) (by omega)).symm

/-- The checksum the code computes is the one of the specification. -/
theorem ItemMem.sum {K : Crc} {c : Core} {it : Item} (hm : ItemMem c.mem 8 true it)
    (hxb : c.xb = 8) (hd : HdrOk c.mem c.xb (it.range 8)) :
    c.recordCrc K (it.range 8) = it.sum K := by
  unfold Core.recordCrc Item.sum
  congr 1
  rw [hxb] at hd ⊢
  have hsz : ofLe32 (readMem c.mem (it.start + 4) 4) = it.size := by
    have := hd.2
    simp only [Item.range] at this
    simp only [Nat.reduceSub] at this
    omega
  have : (it.range 8).size - (8 - 4) = 4 + it.size := by simp only [Item.range]; omega
  rw [this, readMem_append]
  congr 1
  · show readMem c.mem (it.start + 4) 4 = _
    rw [← hsz, le32_ofLe32 _ (readMem_length _ _ _)]
  · show readMem c.mem (it.start + 4 + 4) _ = _
    exact hm.1

/-- The check of a reader is the one of the specification. -/
theorem ItemMem.check {K : Crc} {c : Core} {it : Item} (hm : ItemMem c.mem 8 true it)
    (hxb : c.xb = 8) (hd : HdrOk c.mem c.xb (it.range 8)) :
    (c.recordCrc K (it.range 8) = c.storedCrc (it.range 8)) ↔ it.sum K = it.stored := by
  have e1 : c.storedCrc (it.range 8) = it.stored := hm.2 rfl
  rw [e1, hm.sum hxb hd]

/-! ### The simulation -/

def readerOk (q : PQ) (consumer : Option Cons) : Prop :=
  match q.reader with
  | none => consumer = none
  | some (.plain false) => consumer = some (.plain none)
  | some (.plain true) =>
    q.items ≠ [] ∧ consumer = some (.plain (q.items.head?.map (Item.range q.hb)))
  | some (.cursor n) =>
    n ≤ q.items.length ∧ q.cpos = some n ∧ q.overwrite = false ∧
      consumer = some (.cursor ((q.items.take n).map (Item.range q.hb)))

/-- What ties the index bookkeeping and the memory to the queue. -/
structure QInv (c : Core) (q : PQ) : Prop where
  ow : c.overwrite = q.overwrite
  xb : c.xb = q.hb
  inv : CoreInv c (q.items.map (Item.range q.hb)) ((q.holes ++ q.pend).map (Item.range q.hb))
  mem : ∀ it ∈ q.live, ItemMem c.mem q.hb q.crc it
  holes : q.items = [] → q.holes = []
  cpos : ∀ k, q.cpos = some k → k ≤ q.items.length ∧ c.ncrs = q.items[k]?.map (·.start)

structure NVSim (K : Crc) (s : NV) (q : PQ) : Prop where
  crc : s.crc = q.crc
  core : QInv s.core q
  producer : s.producer = q.producer.map fun p => p.map (Item.range q.hb)
  reader : readerOk q s.consumer
  hdr : s.hdrCrc = K.hdr s.core.nws s.core.cws s.core.lweb s.core.nrs
  parked : ∀ p, s.parked = some p → s.producer = some none ∧ 0 < p.size ∧
    p.size + s.core.xb ≤ s.core.len ∧ p.t = s.core.calcNextWriteStart (p.size + s.core.xb) ∧
    (p.onRead = false → s.core.overwrite = false)

theorem NVSim.new (K : Crc) (len : Nat) (crc overwrite blockOnRead : Bool) (h : len < 2 ^ 32) :
    NVSim K (NV.new K len crc overwrite blockOnRead) (PQ.new crc overwrite) := by
  refine ⟨rfl, ⟨rfl, rfl, ⟨?_, h, Layout.nil (Nat.zero_le _) (by intro e he; cases he), rfl, rfl,
    by intro r hr; simp [PQ.new, PQ.pend] at hr, rfl, rfl⟩, ?_, fun _ => rfl, ?_⟩, rfl, rfl, rfl, ?_⟩
  · cases crc <;> simp [NV.new]
  · intro it hit; simp [PQ.new, PQ.live, PQ.pend] at hit
  · intro k hk
    simp only [PQ.new, Option.some.injEq] at hk
    subst hk
    exact ⟨Nat.le_refl _, rfl⟩
  · intro p hp; cases hp

theorem PQ.hb_ge (q : PQ) : 4 ≤ q.hb := by unfold PQ.hb; split <;> omega

theorem PQ.hb_crc {q : PQ} (h : q.crc = true) : q.hb = 8 := by simp [PQ.hb, h]

theorem PQ.hb_nocrc {q : PQ} (h : q.crc = false) : q.hb = 4 := by simp [PQ.hb, h]

theorem PQ.live_map (q : PQ) : q.live.map (Item.range q.hb) =
    q.items.map (Item.range q.hb) ++ (q.holes ++ q.pend).map (Item.range q.hb) := by
  rw [← List.map_append, ← List.append_assoc]; rfl

/-- Two different live items do not overlap, and all of them are inside the memory. -/
theorem QInv.layout {c : Core} {q : PQ} (h : QInv c q) :
    Layout c.len c.nws c.lweb (q.live.map (Item.range q.hb)) := by
  rw [PQ.live_map]; exact h.inv.layout

theorem QInv.hdrOk {c : Core} {q : PQ} (h : QInv c q) {it : Item} (hit : it ∈ q.live) :
    HdrOk c.mem c.xb (it.range q.hb) :=
  h.inv.hdr _ (by rw [← PQ.live_map]; exact List.mem_map_of_mem hit)

theorem QInv.itemIn {c : Core} {q : PQ} (h : QInv c q) {it : Item} (hit : it ∈ q.live) :
    it.start + it.size + q.hb ≤ c.len ∧ 0 < it.size := by
  have h1 := h.layout.mem (List.mem_map_of_mem hit)
  have h2 := (h.hdrOk hit).1
  rw [h.xb] at h2
  simp only [Item.range, Range.stop] at h1 h2
  omega

theorem PQ.items_live {q : PQ} {it : Item} (hit : it ∈ q.items) : it ∈ q.live := by
  simp [PQ.live, hit]

/-- The check made by the readers. -/
theorem QInv.check {K : Crc} {c : Core} {q : PQ} (h : QInv c q) {it : Item} (hit : it ∈ q.items)
    (hc : q.crc = true) :
    (c.recordCrc K (it.range q.hb) = c.storedCrc (it.range q.hb)) ↔ q.passes K it = true := by
  have hm := h.mem it (PQ.items_live hit)
  have hd := h.hdrOk (PQ.items_live hit)
  rw [hc] at hm
  rw [PQ.hb_crc hc] at hm hd ⊢
  rw [hm.check (by rw [h.xb, PQ.hb_crc hc]) hd]
  simp [PQ.passes, hc]

/-- Fields that do not matter. -/
theorem QInv.frame {c : Core} {q : PQ} (h : QInv c q) (st : Stats) (d : Option (Option Nat))
    (rd : Bool) (lc : Nat) (sh : Bool) :
    QInv { c with stats := st, drain := d, readable := rd, lockCount := lc, shutdown := sh } q :=
  ⟨h.ow, h.xb, h.inv.frame rfl rfl rfl rfl rfl rfl rfl rfl rfl, h.mem, h.holes, h.cpos⟩

theorem PQ.drop_hb (q : PQ) (n : Nat) : (q.drop n).hb = q.hb := rfl
theorem PQ.drop_pend (q : PQ) (n : Nat) : (q.drop n).pend = q.pend := rfl

theorem holesAfter_nil (H : List Item) : holesAfter [] H = [] := rfl
theorem holesAfter_cons (a : Item) (l H : List Item) : holesAfter (a :: l) H = H := rfl

theorem PQ.drop_live {q : PQ} {n : Nat} {it : Item} (h : it ∈ (q.drop n).live) : it ∈ q.live := by
  simp only [PQ.live, PQ.drop_pend, List.mem_append] at h ⊢
  rcases h with (h | h) | h
  · exact Or.inl (Or.inl (List.mem_of_mem_drop h))
  · refine Or.inl (Or.inr ?_)
    simp only [PQ.drop, holesAfter] at h
    split at h
    · cases h
    · exact h
  · exact Or.inr h

theorem drop_cpos {q : PQ} {n : Nat} {c : Core}
    (h : ∀ k, q.cpos = some k → k ≤ q.items.length ∧ c.ncrs = q.items[k]?.map (·.start)) :
    ∀ k, (q.drop n).cpos = some k →
      k ≤ (q.drop n).items.length ∧ c.ncrs = (q.drop n).items[k]?.map (·.start) := by
  intro k hk
  simp only [PQ.drop] at hk ⊢
  cases hq : q.cpos with
  | none => simp [hq] at hk
  | some k' =>
    simp only [hq, Option.bind_some] at hk
    split at hk
    · rename_i hle
      simp only [Option.some.injEq] at hk
      obtain ⟨h1, h2⟩ := h k' hq
      refine ⟨by simp only [List.length_drop]; omega, ?_⟩
      rw [h2, List.getElem?_drop]
      congr 2; omega
    · cases hk

/-- The oldest item leaves. -/
theorem QInv.pop {c : Core} {q : PQ} (h : QInv c q) {it : Item} {rest : List Item}
    (hi : q.items = it :: rest) : QInv (c.advanceRead (it.size + q.hb)) (q.drop 1) := by
  obtain ⟨a, b, l, p, hfr⟩ := advanceRead_frame c (it.size + q.hb)
  have hinv := h.inv
  rw [hi, List.map_cons] at hinv
  have hinv := hinv.advanceRead
  have hinv : CoreInv (c.advanceRead (it.size + q.hb)) (rest.map (Item.range q.hb))
      ((q.holes ++ q.pend).map (Item.range q.hb)) := hinv
  refine ⟨by rw [hfr]; exact h.ow, by rw [hfr]; exact h.xb, ?_, ?_, ?_, ?_⟩
  · have e1 : (q.drop 1).items = rest := by simp [PQ.drop, hi]
    have e2 : (q.drop 1).holes = holesAfter rest q.holes := by simp [PQ.drop, hi]
    rw [PQ.drop_hb, PQ.drop_pend, e1, e2]
    cases rest with
    | nil =>
      rw [holesAfter_nil, List.nil_append]
      rw [List.map_append] at hinv
      exact hinv.forget
    | cons b rest => rw [holesAfter_cons]; exact hinv
  · intro x hx
    have : (c.advanceRead (it.size + q.hb)).mem = c.mem := by rw [hfr]
    rw [this]
    exact h.mem x (PQ.drop_live hx)
  · intro e
    have e1 : q.items.drop 1 = [] := e
    show holesAfter (q.items.drop 1) q.holes = []
    rw [e1]; rfl
  · have : (c.advanceRead (it.size + q.hb)).ncrs = c.ncrs := by rw [hfr]
    rw [this]
    exact drop_cpos h.cpos

theorem maybeReset_id {c : Core} {busy : Bool} (h : c.pendingReset = false) :
    c.maybeReset busy = c := by simp [Core.maybeReset, h]

theorem maybeReset_drain (c : Core) (w busy : Bool) (hp : c.pendingReset = false) :
    ∃ d, ((if w = true then { c with drain := none } else c).maybeReset busy) =
      { c with drain := d } := by
  cases w
  · exact ⟨c.drain, maybeReset_id hp⟩
  · exact ⟨none, maybeReset_id (c := { c with drain := none }) hp⟩

/-- `finish_read_common` on the oldest item. -/
theorem finishRead_frame (c : Core) (busy : Bool) (r : Range)
    (hp : (c.advanceRead r.size).pendingReset = false) :
    ∃ st d, (c.finishRead busy r).1 = { c.advanceRead r.size with stats := st, drain := d } := by
  have key : ∀ c1 : Core, c1.pendingReset = false → ∀ (st : Stats) (w : Bool), ∃ st' d,
      ((if w = true then { ({ c1 with stats := st } : Core) with drain := none }
        else { c1 with stats := st }).maybeReset busy) = { c1 with stats := st', drain := d } := by
    intro c1 h1 st w
    obtain ⟨d, e⟩ := maybeReset_drain { c1 with stats := st } w busy h1
    exact ⟨st, d, e⟩
  exact key _ hp _ _

theorem QInv.finish {c : Core} {q : PQ} (h : QInv c q) {it : Item} {rest : List Item}
    (hi : q.items = it :: rest) (busy : Bool) :
    QInv (c.finishRead busy (it.range q.hb)).1 (q.drop 1) := by
  have hp := h.pop hi
  obtain ⟨st, d, e⟩ := finishRead_frame c busy (it.range q.hb) hp.inv.pend
  rw [e]
  exact hp.frame st d _ _ _

theorem PQ.spoil_hb (q : PQ) : q.spoil.hb = q.hb := by unfold PQ.spoil; split <;> rfl

/-- Two live items share no byte. -/
theorem QInv.apart {c : Core} {q : PQ} (h : QInv c q) {A B : List Item} {a b : Item}
    (hl : q.live = A ++ a :: B) (hb : b ∈ B) :
    a.start + a.size + q.hb ≤ b.start ∨ b.start + b.size + q.hb ≤ a.start := by
  have := h.layout.pairwise
  rw [hl, List.map_append, List.map_cons, List.pairwise_append] at this
  have h2 := List.pairwise_cons.1 this.2.1
  have := h2.1 _ (List.mem_map_of_mem hb)
  simp only [Disj, Range.stop, Item.range] at this
  omega

/-- The checksum of the oldest item is zeroed. -/
theorem QInv.zero {c : Core} {q : PQ} (h : QInv c q) {it : Item} {rest : List Item}
    (hi : q.items = it :: rest) (hc : q.crc = true) : QInv (c.zeroExtra it.start) q.spoil := by
  have hsp : q.spoil = { q with items := { it with stored := 0 } :: rest } := by
    simp [PQ.spoil, hc, hi]
  have hxb : c.xb = 8 := by rw [h.xb, PQ.hb_crc hc]
  have hl : q.live = [] ++ it :: (rest ++ q.holes ++ q.pend) := by simp [PQ.live, hi]
  have hz : ∀ i, (i < it.start ∨ it.start + 4 ≤ i) → (c.zeroExtra it.start).mem i = c.mem i := by
    intro i hh
    simp only [Core.zeroExtra, hxb]
    exact writeMem_out _ _ _ _ (by simpa using hh)
  refine ⟨?_, ?_, ?_, ?_, ?_, ?_⟩
  · rw [hsp]; exact h.ow
  · rw [hsp]; exact h.xb
  · have hinv := h.inv
    rw [hi, List.map_cons] at hinv
    have := hinv.zeroExtra
    rw [hsp]
    exact this
  · intro x hx
    rw [hsp] at hx
    have hx : x ∈ { it with stored := 0 } :: (rest ++ q.holes ++ q.pend) := by
      simpa [PQ.live, PQ.pend] using hx
    rw [hsp]
    show ItemMem _ q.hb q.crc x
    rcases List.mem_cons.1 hx with rfl | hx
    · have hm := h.mem it (PQ.items_live (by simp [hi]))
      refine ⟨?_, fun _ => ?_⟩
      · rw [← hm.1]
        apply readMem_congr
        intro i _
        refine hz _ (Or.inr ?_)
        simp only [PQ.hb_crc hc]; omega
      · have : readMem (c.zeroExtra it.start).mem it.start 4 = List.replicate 4 0 := by
          simp only [Core.zeroExtra, hxb]
          exact readMem_writeMem_same c.mem it.start (List.replicate 4 0)
        show ofLe32 (readMem (c.zeroExtra it.start).mem it.start 4) = 0
        rw [this]; rfl
    · have hd := h.apart hl hx
      have h8 := PQ.hb_crc hc
      refine (h.mem x (by rw [hl]; simp only [List.nil_append]; exact List.mem_cons_of_mem _ hx)).congr
        (fun i h1 h2 => (hz i ?_).symm) (fun _ i h1 h2 => (hz i ?_).symm)
      · omega
      · omega
  · rw [hsp]; intro e; cases e
  · intro k hk
    rw [hsp] at hk ⊢
    obtain ⟨h1, h2⟩ := h.cpos k hk
    rw [hi] at h1 h2
    refine ⟨h1, ?_⟩
    show c.ncrs = _
    rw [h2]
    cases k <;> rfl

end Verif.Buffer
