import Verif.Buffer.TraceLemmas

/-
Properties C01–C04 of the volatile (in-memory) ring buffer.

`history len mem ops` is what an outside observer of a buffer of `len` bytes knows after the calls
`ops`: the reservations granted (with the slice returned and the bytes stored), whether they were
committed, and the records whose reading was finished.  `ops` is any interleaving of calls by any
number of producers, one consumer, flushers and lock holders.  `mem` is the initial memory.
`len < 2 ^ 32` because the length is a `u32`.
-/
namespace Verif.Buffer

/-- C01.  The records delivered are committed reservations, in the order of reservation, none twice
(`read` is strictly increasing), with the bytes the producer stored; and every reservation granted is
in exactly one of three places: delivered, overwritten (`lost`, always committed and older than
everything still there), or still in the buffer (`live`).  In particular an uncommitted reservation
is always still in the buffer.  A consumer that reads on gets exactly the committed reservations at the
front of `live`, up to the first uncommitted one. -/
theorem C01_fifo (len : Nat) (mem : Mem) (hlen : len < 2 ^ 32) (ops : List Op) :
    ∃ read lost live : List Nat,
      read.Pairwise (· < ·) ∧ live.Pairwise (· < ·) ∧
      read.length = (history len mem ops).delivered.length ∧
      (∀ (k i : Nat) (bs : List UInt8), read[k]? = some i → (history len mem ops).delivered[k]? = some bs →
        ∃ g, (history len mem ops).grants[i]? = some g ∧ g.committed = true ∧ stores g.data bs) ∧
      (∀ i ∈ lost, ∃ g, (history len mem ops).grants[i]? = some g ∧ g.committed = true) ∧
      (∀ i ∈ read ++ lost, ∀ j ∈ live, i < j) ∧
      (read ++ lost ++ live).Perm (List.range (history len mem ops).grants.length) ∧
      lost.length = ((Vol.new len mem).run ops).1.core.stats.recordsOverwritten ∧
      (∀ (k : Nat) (x : Range × List UInt8), ((Vol.new len mem).run ops).1.unread[k]? = some x →
        ∃ i g, live[k]? = some i ∧ (history len mem ops).grants[i]? = some g ∧ g.committed = true ∧
          g.slice = x.1 ∧ stores g.data x.2) ∧
      (∀ i, live[((Vol.new len mem).run ops).1.unread.length]? = some i →
        ∃ g, (history len mem ops).grants[i]? = some g ∧ g.committed = false) := by
  obtain ⟨U, O, ids, lost, h, ht⟩ := run_inv len mem hlen ops
  obtain ⟨h1, h2, h3, h4, h5, h5', h6, h7, h8, h9, h10, h11⟩ := ht
  refine ⟨ids, lost, ((Fifo.new len).run ops).1.slots.map (·.id), h4, ?_, h6, h7, h8, ?_, ?_, ?_, ?_, ?_⟩
  · rw [List.pairwise_map]; exact h3
  · intro i hi j hj
    obtain ⟨s, hs, rfl⟩ := List.mem_map.1 hj
    rcases List.mem_append.1 hi with hi | hi
    · exact h5 i hi s hs
    · exact h5' i hi s hs
  · rw [← h1]; exact h9
  · rw [h.lostR, h11]
  · intro k x hx
    rw [unread_known h] at hx
    rw [List.getElem?_map] at hx
    cases hk : U[k]? with
    | none => rw [hk] at hx; simp at hx
    | some s =>
      rw [hk] at hx
      simp only [Option.map_some, Option.some.injEq] at hx
      subst hx
      have hsU : s ∈ U := List.mem_of_getElem? hk
      have hs : s ∈ U ++ O := List.mem_append_left _ hsU
      have hs' : s ∈ ((Fifo.new len).run ops).1.slots := by rw [h.slots]; exact hs
      refine ⟨s.id, s.grant, ?_, h2 s hs', h.com s hsU, rfl, ?_⟩
      · rw [h.slots, List.getElem?_map, List.getElem?_append_left (List.getElem?_eq_some_iff.1 hk).1, hk]
        rfl
      · have hd := h.data s hs
        refine ⟨by simp [readMem_length, Slot.grant, hd.2.1], fun i b hi => ?_⟩
        have hi' : s.data[i]? = some (some b) := hi
        have hlt : i < s.size := by
          rw [← hd.2.1]; exact (List.getElem?_eq_some_iff.1 hi').1
        rw [readMem_getElem? _ _ _ _ hlt, hd.2.2 i b hi']
  · intro i hi
    rw [unread_known h, List.length_map, h.slots, List.getElem?_map,
      List.getElem?_append_right (Nat.le_refl _), Nat.sub_self] at hi
    cases hO : O with
    | nil => rw [hO] at hi; simp at hi
    | cons o O' =>
      rw [hO] at hi
      simp only [List.getElem?_cons_zero, Option.map_some, Option.some.injEq] at hi
      subst hi
      exact ⟨o.grant, h2 o (by rw [h.slots, hO]; simp), h.unc o (by rw [hO]; rfl)⟩

/-- C01, the whole interface at once: every result returned by the buffer is the one the FIFO
specification (`Spec.lean`, a plain list of slots) returns, for every sequence of calls. -/
theorem C01_refines_spec (len : Nat) (mem : Mem) (hlen : len < 2 ^ 32) (ops : List Op) :
    agreesAll ((Vol.new len mem).run ops).2 ((Fifo.new len).run ops).2 := by
  obtain ⟨_, _, _, h⟩ := Sim.run ops (Sim.new len mem hlen)
  exact h

/-- C01, counters: committed records (those no longer behind an uncommitted one) are all accounted
for as read, overwritten or still unread. -/
theorem C01_accounting (len : Nat) (mem : Mem) (hlen : len < 2 ^ 32) (ops : List Op) :
    let v := ((Vol.new len mem).run ops).1
    v.core.stats.recordsWritten =
      v.core.stats.recordsRead + v.core.stats.recordsOverwritten + v.unread.length ∧
    v.core.stats.bytesWritten =
      v.core.stats.bytesRead + v.core.stats.bytesOverwritten + (v.unread.map (·.2.length)).sum := by
  intro v
  obtain ⟨U, O, h, _⟩ := Sim.run ops (Sim.new len mem hlen)
  have hk := h.known
  have hu := unread_eq hk (fun s hs => by
    obtain ⟨s, _, rfl⟩ := List.mem_map.1 hs
    exact Slot.known_allKnown _ _)
  refine ⟨by rw [hu]; simpa using h.cntR, ?_⟩
  rw [hu]
  refine Eq.trans h.cntB ?_
  congr 1
  simp only [sumBytes, List.map_map, Function.comp_def, Slot.asRead, Slot.bytes, Slot.known,
    List.length_map, readMem_length]

/-- Two producers commit in the opposite order of their reservations; records come out in the order
of the reservations. -/
example :
    let ops : List Op := [.reserve 0 3, .reserve 1 2, .write 1 0 [9, 8], .commit 1, .write 0 0 [1, 2, 3],
      .commit 0, .registerConsumer, .startRead false, .finishRead, .startRead false, .finishRead]
    (history 20 (fun _ => 0) ops).delivered = [[1, 2, 3], [9, 8]] := by decide

/-! ### C02 -/

/-- C02.  Every slice a producer holds (`g.committed = false`), and the slice the consumer holds, lies
inside the buffer behind its own four header bytes; slices of reservations still in the buffer are
pairwise disjoint (headers included); uncommitted reservations and the record being read are all still
in the buffer (`live`). -/
theorem C02_exclusive (len : Nat) (mem : Mem) (hlen : len < 2 ^ 32) (ops : List Op) :
    let t := history len mem ops
    ∃ live : List Nat,
      live.Pairwise (· < ·) ∧
      (∀ (i : Nat) (g : Grant), t.grants[i]? = some g → g.committed = false → i ∈ live) ∧
      (∀ r bs, t.reading = some (r, bs) → ∃ i g, live.head? = some i ∧ t.grants[i]? = some g ∧
        g.committed = true ∧ g.slice = r) ∧
      (∀ i ∈ live, ∃ g, t.grants[i]? = some g ∧ 4 ≤ g.slice.start ∧ 0 < g.slice.size ∧
        g.slice.start + g.slice.size ≤ len) ∧
      (∀ i ∈ live, ∀ j ∈ live, i ≠ j → ∀ g g', t.grants[i]? = some g → t.grants[j]? = some g' →
        Apart ⟨g.slice.start - 4, g.slice.size + 4⟩ ⟨g'.slice.start - 4, g'.slice.size + 4⟩) := by
  intro t
  obtain ⟨U, O, ids, lost, h, ht⟩ := run_inv len mem hlen ops
  have hflen : ((Fifo.new len).run ops).1.len = len := Fifo.run_len ops _
  generalize ((Fifo.new len).run ops).1 = f at *
  obtain ⟨h1, h2, h3, h4, h5, h5', h6, h7, h8, h9, h10, h11⟩ := ht
  have hnd : (ids ++ lost ++ f.slots.map (·.id)).Nodup := h9.nodup_iff.2 List.nodup_range
  refine ⟨f.slots.map (·.id), ?_, ?_, ?_, ?_, ?_⟩
  · rw [List.pairwise_map]; exact h3
  · intro i g hg hc
    have hi : i < f.granted := by
      rw [h1]; exact (List.getElem?_eq_some_iff.1 hg).1
    have : i ∈ ids ++ lost ++ f.slots.map (·.id) := h9.symm.subset (by simpa using hi)
    rcases List.mem_append.1 this with hm | hm
    · exfalso
      rcases List.mem_append.1 hm with hm | hm
      · obtain ⟨k, hk, hk'⟩ := List.getElem_of_mem hm
        have hk2 : ids[k]? = some i := by rw [List.getElem?_eq_getElem hk, hk']
        have hlt : k < t.delivered.length := by rw [← h6]; exact hk
        obtain ⟨g', hg', hc', _⟩ := h7 k i t.delivered[k] hk2 (List.getElem?_eq_getElem hlt)
        have hg'' : t.grants[i]? = some g' := hg'
        rw [hg] at hg''
        obtain rfl : g = g' := by simpa using hg''
        rw [hc] at hc'; simp at hc'
      · obtain ⟨g', hg', hc'⟩ := h8 i hm
        have hg'' : t.grants[i]? = some g' := hg'
        rw [hg] at hg''
        obtain rfl : g = g' := by simpa using hg''
        rw [hc] at hc'; simp at hc'
    · exact hm
  · intro r bs hr
    have h10' : f.consumer = some true ∧ ∃ s, f.slots.head? = some s ∧
        r = ⟨s.start + 4, s.size⟩ ∧ stores s.data bs ∧ s.committed = true := by
      have : (history len mem ops).reading = some (r, bs) := hr
      rw [this] at h10; exact h10
    obtain ⟨_, s, hs, rfl, _, hc⟩ := h10'
    exact ⟨s.id, s.grant, by simp [hs], h2 s (List.mem_of_head? hs), hc, rfl⟩
  · intro i hi
    obtain ⟨s, hs, rfl⟩ := List.mem_map.1 hi
    have hs' : s ∈ U ++ O := by rw [← h.slots]; exact hs
    have hm := h.inv.layout.mem (h.mem_range hs')
    have hd := h.data s hs'
    refine ⟨s.grant, h2 s hs, by simp [Slot.grant], hd.1, ?_⟩
    have := hm.1
    rw [h.len, hflen] at this
    simp [Range.stop, Slot.range, Slot.grant] at this ⊢
    omega
  · intro i hi j hj hij g g' hg hg'
    obtain ⟨s, hs, rfl⟩ := List.mem_map.1 hi
    obtain ⟨s', hs', rfl⟩ := List.mem_map.1 hj
    have e : t.grants[s.id]? = some s.grant := h2 s hs
    have e' : t.grants[s'.id]? = some s'.grant := h2 s' hs'
    rw [hg] at e
    rw [hg'] at e'
    obtain rfl : g = s.grant := by simpa using e
    obtain rfl : g' = s'.grant := by simpa using e'
    have hp := h.inv.layout.pairwise
    rw [← List.map_append, ← h.slots, List.pairwise_map] at hp
    have hd : Disj s.range s'.range := by
      clear h2 h3 h5 h5' h9 h10 hnd hi hj
      revert hs hs'
      generalize f.slots = l at hp
      induction l with
      | nil => simp
      | cons a l ih =>
        intro hs hs'
        have hp' := List.pairwise_cons.1 hp
        rcases List.mem_cons.1 hs with rfl | hs1
        · rcases List.mem_cons.1 hs' with rfl | hs1'
          · exact absurd rfl hij
          · exact hp'.1 _ hs1'
        · rcases List.mem_cons.1 hs' with rfl | hs1'
          · exact (hp'.1 _ hs1).symm
          · exact ih hp'.2 hs1 hs1'
    simp only [Disj, Range.stop, Slot.range, Apart, Slot.grant] at hd ⊢
    omega

/-! ### C03 -/

/-- The bytes a record of `n` bytes (header included) needs when the last reservation ended at `nxt`:
the `n` bytes behind it if they exist; otherwise the first `n` bytes of the buffer and the unusable
rest behind `nxt`. -/
def Needed (len nxt n : Nat) (i : Nat) : Prop :=
  if nxt + n ≤ len then nxt ≤ i ∧ i < nxt + n else i < n ∨ (nxt ≤ i ∧ i < len)

/-- Byte `i` belongs to the slice or to the four header bytes in front of it. -/
def Occupies (slice : Range) (i : Nat) : Prop := slice.start ≤ i + 4 ∧ i < slice.start + slice.size

theorem inTheWay_iff (f : Fifo) (n : Nat) (s : Slot) (hs : s.stop ≤ f.len)
    (hsz : 0 < s.size) :
    f.inTheWay n s = true ↔
      ∃ i, Needed f.len f.next n i ∧ Occupies ⟨s.start + 4, s.size⟩ i := by
  unfold Fifo.inTheWay Slot.overlaps Needed Occupies Slot.stop headerBytes at *
  by_cases hc : f.next + n ≤ f.len
  · simp only [if_pos hc, decide_eq_true_eq]
    constructor
    · intro h; exact ⟨max s.start f.next, by omega, by omega⟩
    · rintro ⟨i, h1, h2⟩; omega
  · simp only [if_neg hc, Bool.or_eq_true, decide_eq_true_eq]
    constructor
    · rintro (h | h)
      · exact ⟨s.start, by omega, by omega⟩
      · exact ⟨max s.start f.next, by omega, by omega⟩
    · rintro ⟨i, h1, h2⟩
      omega

theorem held_iff {t : Trace} {f : Fifo} {ids lost : List Nat} (ht : TInv t f ids lost) (p : Nat) :
    (∃ g ∈ t.grants, g.owner = p ∧ g.committed = false) ↔
      f.slots.any (fun s => s.owner == p && !s.committed) = true := by
  obtain ⟨h1, h2, h3, h4, h5, h5', h6, h7, h8, h9, h10, h11⟩ := ht
  rw [List.any_eq_true]
  constructor
  · rintro ⟨g, hg, ho, hc⟩
    obtain ⟨i, hi, hgi⟩ := List.getElem_of_mem hg
    have hgi' : t.grants[i]? = some g := by rw [List.getElem?_eq_getElem hi, hgi]
    have : i ∈ ids ++ lost ++ f.slots.map (·.id) := h9.symm.subset (by simpa [h1] using hi)
    rcases List.mem_append.1 this with hm | hm
    · exfalso
      rcases List.mem_append.1 hm with hm | hm
      · obtain ⟨k, hk, hk'⟩ := List.getElem_of_mem hm
        have hk2 : ids[k]? = some i := by rw [List.getElem?_eq_getElem hk, hk']
        have hlt : k < t.delivered.length := by rw [← h6]; exact hk
        obtain ⟨g', hg', hc', _⟩ := h7 k i t.delivered[k] hk2 (List.getElem?_eq_getElem hlt)
        rw [hgi'] at hg'
        obtain rfl : g = g' := by simpa using hg'
        rw [hc] at hc'; simp at hc'
      · obtain ⟨g', hg', hc'⟩ := h8 i hm
        rw [hgi'] at hg'
        obtain rfl : g = g' := by simpa using hg'
        rw [hc] at hc'; simp at hc'
    · obtain ⟨s, hs, rfl⟩ := List.mem_map.1 hm
      have := h2 s hs
      rw [hgi'] at this
      obtain rfl : g = s.grant := by simpa using this
      exact ⟨s, hs, by simp [show s.owner = p from ho, show s.committed = false from hc]⟩
  · rintro ⟨s, hs, hsp⟩
    simp at hsp
    exact ⟨s.grant, List.mem_of_getElem? (h2 s hs), hsp.1, hsp.2⟩

/-- C03.  What `reserve` answers, in every reachable state, for every requested size (also one that
overflows `u32` once the header is added):
* a producer that still holds a reservation gets `InvalidArgument` and nothing changes;
* while the buffer is locked every request is refused with `FailedPrecondition`;
* otherwise zero bytes or more than `len - 4` bytes are refused with `InvalidArgument`;
* otherwise the request is refused with `ResourceExhausted` exactly when a byte it needs belongs to a
  slice somebody holds (an uncommitted reservation or the record being read), and granted with exactly
  `size` bytes in all other cases.
A refusal changes nothing but the counters, so every unread record stays readable. -/
theorem C03_reserve (len : Nat) (mem : Mem) (hlen : len < 2 ^ 32) (ops : List Op) (p size : Nat) :
    let v := ((Vol.new len mem).run ops).1
    let t := history len mem ops
    let held := ∃ g ∈ t.grants, g.owner = p ∧ g.committed = false
    let blocked := ∃ slice i, ((∃ g ∈ t.grants, g.committed = false ∧ g.slice = slice) ∨
        ∃ bs, t.reading = some (slice, bs)) ∧
      Needed len v.core.nws (size + 4) i ∧ Occupies slice i
    (held → v.reserve p size = (v, .err .invalidArgument)) ∧
    (¬ held → v.core.lockCount > 0 → (v.reserve p size).2 = .err .failedPrecondition) ∧
    (¬ held → v.core.lockCount = 0 → size = 0 ∨ size + 4 > len →
      (v.reserve p size).2 = .err .invalidArgument) ∧
    (¬ held → v.core.lockCount = 0 → 0 < size → size + 4 ≤ len → blocked →
      (v.reserve p size).2 = .err .resourceExhausted) ∧
    (¬ held → v.core.lockCount = 0 → 0 < size → size + 4 ≤ len → ¬ blocked →
      ∃ start, (v.reserve p size).2 = .ok ⟨start, size⟩) ∧
    (∀ e, (v.reserve p size).2 = .err e →
      (v.reserve p size).1 = { v with core := { v.core with stats := (v.reserve p size).1.core.stats } } ∧
      (v.reserve p size).1.unread = v.unread) := by
  intro v t held blocked
  obtain ⟨U, O, ids, lost, h, ht⟩ := run_inv len mem hlen ops
  have hflen : ((Fifo.new len).run ops).1.len = len := Fifo.run_len ops _
  generalize hf : ((Fifo.new len).run ops).1 = f at *
  have hheld : held ↔ f.slots.any (fun s => s.owner == p && !s.committed) = true := held_iff ht p
  obtain ⟨U1, O1, h1, e1, e2⟩ := h.reserve' p size
  have hpin : (f.slots.any (fun s => f.inTheWay (size + 4) s && f.pinned s) = true) ↔
      (size + 4 ≤ len → blocked) ∧ (f.slots.any (fun s => f.inTheWay (size + 4) s && f.pinned s) = true) ∨
      (size + 4 ≤ len ∧ blocked) := by
    constructor
    · intro ha
      by_cases hsz : size + 4 ≤ len
      · right
        refine ⟨hsz, ?_⟩
        rw [List.any_eq_true] at ha
        obtain ⟨s, hs, hw⟩ := ha
        simp only [Bool.and_eq_true] at hw
        obtain ⟨hw, hp⟩ := hw
        have hs' : s ∈ U ++ O := by rw [← h.slots]; exact hs
        have hm := h.inv.layout.mem (h.mem_range hs')
        have hd := h.data s hs'
        have hstop : s.stop ≤ f.len := by
          have := hm.1
          rw [h.len] at this
          simp [Range.stop, Slot.range, Slot.stop, headerBytes] at this ⊢
          omega
        obtain ⟨i, hi1, hi2⟩ := (inTheWay_iff f (size + 4) s hstop hd.1).1 hw
        refine ⟨⟨s.start + 4, s.size⟩, i, ?_, ?_, hi2⟩
        · simp only [Fifo.pinned, Bool.or_eq_true, Bool.not_eq_true'] at hp
          rcases hp with hp | hp
          · exact Or.inl ⟨s.grant, List.mem_of_getElem? (ht.slots s hs), hp, rfl⟩
          · right
            simp only [Fifo.isRead, Bool.and_eq_true, beq_iff_eq] at hp
            obtain ⟨hc, hid⟩ := hp
            have hr := ht.reading
            cases hrd : t.reading with
            | none =>
              have hrd' : (history len mem ops).reading = none := hrd
              rw [hrd'] at hr; exact absurd hc hr
            | some x =>
              obtain ⟨r, bs⟩ := x
              have hrd' : (history len mem ops).reading = some (r, bs) := hrd
              rw [hrd'] at hr
              obtain ⟨_, s', hs1, hr', _⟩ := hr
              rw [hs1] at hid
              have hid : s'.id = s.id := by simpa using hid
              have hs2 := ht.slots s hs
              have hs3 := ht.slots s' (List.mem_of_head? hs1)
              rw [hid, hs2] at hs3
              have : s.grant = s'.grant := by simpa using hs3
              have : s.grant.slice = s'.grant.slice := by rw [this]
              exact ⟨bs, by rw [hr']; exact congrArg some (Prod.ext this.symm rfl)⟩
        · rw [hflen] at hi1
          have : v.core.nws = f.next := h.nws
          rw [this]; exact hi1
      · left; exact ⟨fun h => absurd h hsz, ha⟩
    · rintro (⟨_, ha⟩ | ⟨hsz, slice, i, hsl, hi1, hi2⟩)
      · exact ha
      · rw [List.any_eq_true]
        have key : ∀ s ∈ f.slots, (⟨s.start + 4, s.size⟩ : Range) = slice →
            f.inTheWay (size + 4) s = true := by
          intro s hs hsl
          have hs' : s ∈ U ++ O := by rw [← h.slots]; exact hs
          have hm := h.inv.layout.mem (h.mem_range hs')
          have hd := h.data s hs'
          have hstop : s.stop ≤ f.len := by
            have := hm.1
            rw [h.len] at this
            simp [Range.stop, Slot.range, Slot.stop, headerBytes] at this ⊢
            omega
          refine (inTheWay_iff f (size + 4) s hstop hd.1).2 ⟨i, ?_, by rw [hsl]; exact hi2⟩
          rw [hflen]
          have : v.core.nws = f.next := h.nws
          rw [← this]; exact hi1
        rcases hsl with ⟨g, hg, hgc, hgs⟩ | ⟨bs, hrd⟩
        · -- an open grant is a slot
          have hh := (held_iff ht g.owner).1 ⟨g, hg, rfl, hgc⟩
          rw [List.any_eq_true] at hh
          obtain ⟨s, hs, hso⟩ := hh
          simp at hso
          -- find the slot with this very grant
          obtain ⟨j, hj, hgj⟩ := List.getElem_of_mem hg
          have hgj' : (history len mem ops).grants[j]? = some g := by
            rw [List.getElem?_eq_getElem hj, hgj]
          have hin : j ∈ ids ++ lost ++ f.slots.map (·.id) :=
            ht.perm.symm.subset (by rw [ht.granted]; simpa using hj)
          rcases List.mem_append.1 hin with hm | hm
          · exfalso
            rcases List.mem_append.1 hm with hm | hm
            · obtain ⟨k, hk, hk'⟩ := List.getElem_of_mem hm
              have hk2 : ids[k]? = some j := by rw [List.getElem?_eq_getElem hk, hk']
              have hlt : k < (history len mem ops).delivered.length := by rw [← ht.len]; exact hk
              obtain ⟨g', hg', hc', _⟩ := ht.del k j _ hk2 (List.getElem?_eq_getElem hlt)
              rw [hgj'] at hg'
              obtain rfl : g = g' := by simpa using hg'
              rw [hgc] at hc'; simp at hc'
            · obtain ⟨g', hg', hc'⟩ := ht.lostCom j hm
              rw [hgj'] at hg'
              obtain rfl : g = g' := by simpa using hg'
              rw [hgc] at hc'; simp at hc'
          · obtain ⟨s, hs, rfl⟩ := List.mem_map.1 hm
            have := ht.slots s hs
            rw [hgj'] at this
            obtain rfl : g = s.grant := by simpa using this
            refine ⟨s, hs, ?_⟩
            have hsc : s.committed = false := hgc
            simp [key s hs hgs, Fifo.pinned, hsc]
        · have hr := ht.reading
          have hrd' : (history len mem ops).reading = some (slice, bs) := hrd
          rw [hrd'] at hr
          obtain ⟨hc, s, hs1, hr', _⟩ := hr
          refine ⟨s, List.mem_of_head? hs1, ?_⟩
          rw [key s (List.mem_of_head? hs1) hr'.symm]
          simp [Fifo.pinned, Fifo.isRead, hc, hs1]
  have hlock : v.core.lockCount = f.locks := h.locks
  refine ⟨?_, ?_, ?_, ?_, ?_, ?_⟩
  · intro hh
    have hh := hheld.1 hh
    have : v.holds p = true := by rw [h.holds p]; exact hh
    show Vol.reserve v p size = _
    simp [Vol.reserve, this]
  · intro hh hl
    rw [hheld] at hh
    show (v.reserve p size).2 = _
    rw [show (v.reserve p size).2 = (f.reserve p size).2 from e1]
    unfold Fifo.reserve
    simp only
    rw [if_neg hh, if_pos (by rw [← hlock]; exact hl)]
  · intro hh hl hs
    rw [hheld] at hh
    rw [show (v.reserve p size).2 = (f.reserve p size).2 from e1]
    unfold Fifo.reserve
    simp only
    rw [if_neg hh, if_neg (by rw [← hlock]; omega), if_pos (by rw [hflen]; exact hs)]
  · intro hh hl h0 hsz hb
    rw [hheld] at hh
    rw [show (v.reserve p size).2 = (f.reserve p size).2 from e1]
    unfold Fifo.reserve
    simp only
    rw [if_neg hh, if_neg (by rw [← hlock]; omega), if_neg (by rw [hflen]; simp only [headerBytes]; omega),
      if_pos (show (f.slots.any fun s => f.inTheWay (size + headerBytes) s && f.pinned s) = true from
        hpin.2 (Or.inr ⟨hsz, hb⟩))]
  · intro hh hl h0 hsz hb
    rw [hheld] at hh
    rw [show (v.reserve p size).2 = (f.reserve p size).2 from e1]
    unfold Fifo.reserve
    simp only
    rw [if_neg hh, if_neg (by rw [← hlock]; omega), if_neg (by rw [hflen]; simp only [headerBytes]; omega),
      if_neg (show ¬ (f.slots.any fun s => f.inTheWay (size + headerBytes) s && f.pinned s) = true from
       fun ha => by
        rcases hpin.1 ha with ⟨hb', _⟩ | ⟨_, hb'⟩
        · exact hb (hb' hsz)
        · exact hb hb')]
    exact ⟨_, rfl⟩
  · intro e he
    rcases e2 with ⟨r, hr⟩ | e2
    · rw [show (v.reserve p size).2 = _ from hr] at he; simp at he
    refine ⟨e2, ?_⟩
    have hk := h.known
    have hkk : ∀ s ∈ U.map (Slot.known v.core.mem), s.AllKnown := by
      intro s hs
      obtain ⟨s, _, rfl⟩ := List.mem_map.1 hs
      exact Slot.known_allKnown _ _
    obtain ⟨U2, O2, h2, e3, _⟩ := hk.reserve' p size
    have hvis : (Fifo.reserve { f with slots := f.slots.map (Slot.known v.core.mem) } p size).1.visible
        = U.map (Slot.known v.core.mem) := by
      have hv := hk.visible
      rw [show (v.reserve p size).2 = _ from e3] at he
      rw [← hv]
      revert he
      unfold Fifo.reserve
      simp only
      split
      · intro _; rfl
      split
      · intro _; rfl
      split
      · intro _; rfl
      split
      · intro _; rfl
      · simp
    have r1 := unread_visible h2 (by rw [hvis]; exact hkk)
    rw [hvis] at r1
    have r2 := unread_eq hk hkk
    exact r1.trans r2.symm

/-- A reachable state in which producer 0 holds a slice, nothing else does, and 5 bytes are refused
because the slice is in the way while 3 bytes are granted. -/
example :
    let v := ((Vol.new 20 (fun _ => 0)).run [.reserve 0 9]).1
    (v.reserve 1 5).2 = .err .resourceExhausted ∧ (v.reserve 1 3).2 = .ok ⟨17, 3⟩ ∧
    (v.reserve 1 4294967295).2 = .err .invalidArgument := by decide

/-! ### C04 -/

/-- C04.  When a reservation is granted, the records a consumer could read before (`v.unread`) are
some oldest ones, which are discarded, followed by the rest, which is exactly what a consumer can read
after; each discarded record occupied a byte the new one needed; the counters grow by exactly the
discarded records and bytes. -/
theorem C04_overwrite_oldest (len : Nat) (mem : Mem) (hlen : len < 2 ^ 32) (ops : List Op)
    (p size : Nat) (r : Range) :
    let v := ((Vol.new len mem).run ops).1
    let v' := (v.reserve p size).1
    (v.reserve p size).2 = .ok r →
    ∃ dropped, v.unread = dropped ++ v'.unread ∧
      (∀ x ∈ dropped, ∃ i, Needed len v.core.nws (size + 4) i ∧ Occupies x.1 i) ∧
      (∀ x ∈ v'.unread, ¬ ∃ i, Needed len v.core.nws (size + 4) i ∧ Occupies x.1 i) ∧
      v'.core.stats.recordsOverwritten = v.core.stats.recordsOverwritten + dropped.length ∧
      v'.core.stats.bytesOverwritten = v.core.stats.bytesOverwritten + (dropped.map (·.2.length)).sum := by
  intro v v' hr
  obtain ⟨U, O, ids, lost, h0, ht⟩ := run_inv len mem hlen ops
  have hflen : ((Fifo.new len).run ops).1.len = len := Fifo.run_len ops _
  generalize hf : ((Fifo.new len).run ops).1 = f0 at *
  have h := h0.known
  have hkk : ∀ s ∈ U.map (Slot.known v.core.mem), s.AllKnown := by
    intro s hs
    obtain ⟨s, _, rfl⟩ := List.mem_map.1 hs
    exact Slot.known_allKnown _ _
  have hu := unread_eq h hkk
  have hdl : ∀ s ∈ U.map (Slot.known v.core.mem) ++ O.map (Slot.known v.core.mem), s.data.length = s.size :=
    fun s hs => (h.data s hs).2.1
  revert h
  generalize hK : U.map (Slot.known v.core.mem) = K at *
  generalize O.map (Slot.known v.core.mem) = O' at *
  have hflen' : ({ f0 with slots := f0.slots.map (Slot.known v.core.mem) } : Fifo).len = len := hflen
  have hnext : ({ f0 with slots := f0.slots.map (Slot.known v.core.mem) } : Fifo).next = v.core.nws :=
    h0.nws.symm
  generalize ({ f0 with slots := f0.slots.map (Slot.known v.core.mem) } : Fifo) = f at *
  intro h
  obtain ⟨U1, O1, h1, e1, _⟩ := h.reserve' p size
  have e1 : (f.reserve p size).2 = .ok r := by rw [← e1]; exact hr
  -- the granted branch
  have hgr : ¬ (size = 0 ∨ size + 4 > f.len) ∧
      f.slots.any (fun s => f.inTheWay (size + 4) s && f.pinned s) = false ∧
      (f.reserve p size).1.slots = f.slots.filter (fun s => !f.inTheWay (size + 4) s) ++
        [⟨f.granted, p, f.place (size + 4), size, List.replicate size none, false⟩] ∧
      (f.reserve p size).1.lostRecords = f.lostRecords + (f.slots.filter (f.inTheWay (size + 4))).length ∧
      (f.reserve p size).1.lostBytes = f.lostBytes + sumSizes (f.slots.filter (f.inTheWay (size + 4))) := by
    revert e1
    unfold Fifo.reserve
    simp only
    split
    · simp
    split
    · simp
    split
    · simp
    split
    · simp
    · rename_i a b c d
      intro _
      exact ⟨c, by simpa [headerBytes] using d, rfl, rfl, rfl⟩
  obtain ⟨hsz, hpin, hslots, hlr, hlb⟩ := hgr
  have hpin : ∀ s ∈ f.slots, f.inTheWay (size + 4) s = true → f.pinned s = false := by
    intro s hs hw
    rw [List.any_eq_false] at hpin
    have := hpin s hs
    simpa [hw] using this
  have hOfree : ∀ o ∈ O', f.inTheWay (size + 4) o = false := by
    refine h.noneInO (by omega) (fun o ho => ?_)
    have hom : o ∈ f.slots := by rw [h.slots]; exact List.mem_append_right _ (List.mem_of_head? ho)
    cases hw : f.inTheWay (size + 4) o with
    | false => rfl
    | true =>
      have := hpin o hom hw
      simp [Fifo.pinned, h.unc o ho] at this
  -- the records in the way are a prefix
  have hpre : ∀ (A B : List Slot), A ++ B = K → (∀ s ∈ A, f.inTheWay (size + 4) s = true) →
      ∃ V R, K = V ++ R ∧ (∀ s ∈ V, f.inTheWay (size + 4) s = true) ∧
        (∀ s ∈ R, f.inTheWay (size + 4) s = false) := by
    intro A B
    induction B generalizing A with
    | nil => intro hAB hA; exact ⟨A, [], by simpa using hAB.symm, hA, by simp⟩
    | cons b B ih =>
      intro hAB hA
      cases hb : f.inTheWay (size + 4) b with
      | true =>
        refine ih (A ++ [b]) (by simpa using hAB) ?_
        intro s hs
        rcases List.mem_append.1 hs with hs | hs
        · exact hA s hs
        · simp at hs; subst hs; exact hb
      | false =>
        refine ⟨A, b :: B, hAB.symm, hA, ?_⟩
        intro s hs
        rcases List.mem_cons.1 hs with rfl | hs
        · exact hb
        · exact h.noneAfter (by omega) (A := A) (s := b) (B := B ++ O') (by rw [← hAB]; simp) hb s
            (by simp [hs])
  obtain ⟨V, R, hVR, hV, hR⟩ := hpre [] K rfl (by simp)
  have hfilt1 : f.slots.filter (f.inTheWay (size + 4)) = V := by
    rw [h.slots, hVR, List.append_assoc, List.filter_append, List.filter_eq_self.2 hV,
      List.filter_eq_nil_iff.2, List.append_nil]
    intro s hs
    rcases List.mem_append.1 hs with hs | hs
    · simp [hR s hs]
    · simp [hOfree s hs]
  have hfilt2 : f.slots.filter (fun s => !f.inTheWay (size + 4) s) = R ++ O' := by
    rw [h.slots, hVR, List.append_assoc, List.filter_append, List.filter_eq_nil_iff.2,
      List.filter_eq_self.2, List.nil_append]
    · intro s hs
      rcases List.mem_append.1 hs with hs | hs
      · simp [hR s hs]
      · simp [hOfree s hs]
    · intro s hs; simp [hV s hs]
  have hvis : (f.reserve p size).1.visible = R := by
    rw [Fifo.visible, hslots, hfilt2, List.append_assoc]
    refine takeWhile_append (fun s hs => h.com s (by rw [hVR]; simp [hs])) ?_
    intro o ho
    cases O' with
    | nil => simp at ho; subst ho; rfl
    | cons o' O' => exact h.unc o (by simpa using ho)
  have hu' : v'.unread = R.map Slot.asRead := by
    have := unread_visible h1 (by rw [hvis]; intro s hs; exact hkk s (by rw [hVR]; simp [hs]))
    rw [hvis] at this; exact this
  have hway : ∀ s ∈ f.slots, (f.inTheWay (size + 4) s = true ↔
      ∃ i, Needed len v.core.nws (size + 4) i ∧ Occupies ⟨s.start + 4, s.size⟩ i) := by
    intro s hs
    have hs' : s ∈ K ++ O' := by rw [← h.slots]; exact hs
    have hm := h.inv.layout.mem (h.mem_range hs')
    have hd := h.data s hs'
    have hstop : s.stop ≤ f.len := by
      have := hm.1
      rw [h.len] at this
      simp [Range.stop, Slot.range, Slot.stop, headerBytes] at this ⊢
      omega
    rw [inTheWay_iff f (size + 4) s hstop hd.1, hflen', hnext]
  have hK' : ∀ s ∈ K, s ∈ f.slots := by intro s hs; rw [h.slots]; simp [hs]
  refine ⟨V.map Slot.asRead, ?_, ?_, ?_, ?_, ?_⟩
  · rw [hu', ← List.map_append, ← hVR]; exact hu
  · intro x hx
    obtain ⟨s, hs, rfl⟩ := List.mem_map.1 hx
    exact (hway s (hK' s (by rw [hVR]; simp [hs]))).1 (hV s hs)
  · intro x hx
    rw [hu'] at hx
    obtain ⟨s, hs, rfl⟩ := List.mem_map.1 hx
    intro hex
    have := (hway s (hK' s (by rw [hVR]; simp [hs]))).2 hex
    rw [hR s hs] at this; simp at this
  · have a := h1.lostR
    have b := h.lostR
    rw [hlr, hfilt1, ← b] at a
    simpa using a
  · have a := h1.lostB
    have b := h.lostB
    rw [hlb, hfilt1, ← b] at a
    refine Eq.trans a ?_
    congr 1
    simp only [sumSizes, List.map_map, Function.comp_def, Slot.asRead, Slot.bytes, List.length_map]
    congr 1
    apply List.map_congr_left
    intro s hs
    exact (hdl s (by rw [hVR]; simp [hs])).symm

/-- Two records of a 20 byte buffer, the third reservation discards exactly the first. -/
example :
    let v := ((Vol.new 20 (fun _ => 0)).run [.reserve 0 4, .write 0 0 [1, 2, 3, 4], .commit 0,
      .reserve 0 4, .write 0 0 [5, 6, 7, 8], .commit 0]).1
    (v.reserve 0 3).2 = .ok ⟨4, 3⟩ ∧ v.unread = [(⟨4, 4⟩, [1, 2, 3, 4]), (⟨12, 4⟩, [5, 6, 7, 8])] ∧
    (v.reserve 0 3).1.unread = [(⟨12, 4⟩, [5, 6, 7, 8])] := by decide

end Verif.Buffer
