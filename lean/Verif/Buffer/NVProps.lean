import Verif.Buffer.NVTraceLemmas

/-
C05, C06 and C08: the persistent ring buffer.  `nvAfter … ops` is the buffer after the calls `ops` on a
new file, `nvHistory … ops` is what an outside observer of those calls knows (`NVTrace.lean`).
-/
namespace Verif.Buffer

/-- A checksum to test the statements with. -/
def testCrc : Crc where
  sum l := (l.foldl (fun a b => a * 3 + b.toNat) 1) % 2 ^ 32
  sum_lt l := Nat.mod_lt _ (by decide)
  hdr a b c d := a + 7 * b.getD 1000 + 49 * c.getD 1000 + 343 * d.getD 1000

/-- Reserve, fill and commit one record. -/
def put (bs : List UInt8) : List NOp := [.reserve bs.length true, .write 0 bs, .commit]

/-- The whole interface: every history of the persistent ring buffer, with any number of alterations of
the memory and restarts, is a history of the queue in `NVSpec.lean`. -/
theorem C05_refines_spec (K : Crc) (len : Nat) (hlen : len < 2 ^ 32)
    (crc overwrite blockOnRead : Bool) (ops : List NOp) :
    ∃ q, PQ.Run K (PQ.new crc overwrite) ops q
      ((NV.new K len crc overwrite blockOnRead).run K ops).2 := by
  obtain ⟨q, h, _⟩ := NVSim.run ops (NVSim.new K len crc overwrite blockOnRead hlen)
  exact ⟨q, h⟩

theorem slice_data (q : PQ) (l : List Item) : (l.map q.slice).map (·.2) = l.map (·.data) := by
  rw [List.map_map]; rfl

/-! ### C05 -/

/-- C05.  Without overwriting: the records taken by the consumers are the oldest committed ones, in
order and with the bytes the producer stored, and a new consumer still gets all the others.  While a
plain consumer holds a record, that record is the next one and the rest is there once it finishes. -/
theorem C05_never_loses (K : Crc) (len : Nat) (hlen : len < 2 ^ 32) (crc blockOnRead : Bool)
    (ops : List NOp) (hz : NoZero K (NV.new K len crc false blockOnRead) ops) :
    let s := nvAfter K len crc false blockOnRead ops
    let t := nvHistory K len crc false blockOnRead ops
    t.calm = true →
    t.taken.length ≤ t.committed.length ∧
    storesAll (t.committed.take t.taken.length) t.taken ∧
    (t.reading = none → storesAll (t.committed.drop t.taken.length) ((s.unread K).map (·.2))) ∧
    (∀ bs, t.reading = some bs → ∃ d rest, t.committed.drop t.taken.length = d :: rest ∧
      stores d bs ∧ storesAll rest (((s.finishRead K).1.unread K).map (·.2))) := by
  intro s t hc
  obtain ⟨q, h, ho, _⟩ := nv_reach K len hlen crc blockOnRead ops hz hc
  refine ⟨ho.done.1, ho.done.2, ?_, ?_⟩
  · intro hr
    rw [unread_nv h, slice_data]
    have := (ho.idle (Or.inl (by rw [show t.reading = none from hr]; rfl))).2
    have hl := ho.left
    rw [this] at hl
    exact hl
  · intro bs hr
    have hrd := ho.reading
    rw [show t.reading = some bs from hr] at hrd
    by_cases hq : q.reader = some (.plain true)
    · rw [if_pos hq] at hrd
      cases hi : q.items with
      | nil => rw [hi] at hrd; cases hrd
      | cons it rest =>
        rw [hi] at hrd
        have hbs : bs = it.data := by simpa using hrd
        have hl := ho.left
        unfold viewOf at hl
        rw [if_pos hq, hi] at hl
        have hl : storesAll (t.committed.drop t.taken.length)
          (it.data :: (rest.filter (q.passes K)).map (·.data)) := hl
        obtain ⟨q1, h1, h2, _⟩ := finishRead_sim h
        unfold PQ.finishRead at h2
        rw [hq] at h2
        obtain ⟨rfl, _⟩ := h2
        have hu := unread_nv h1
        have hi1 : (q.drop 1).items = rest := by simp [PQ.drop, hi]
        cases hd : t.committed.drop t.taken.length with
        | nil => rw [hd] at hl; cases hl
        | cons d ds =>
          rw [hd] at hl
          cases hl with
          | cons a b =>
            refine ⟨d, ds, rfl, by rw [hbs]; exact a, ?_⟩
            show storesAll ds (((s.finishRead K).1.unread K).map (·.2))
            rw [show (s.finishRead K).1.unread K = _ from hu, slice_data]
            show storesAll ds (((q.drop 1).items.filter (q.passes K)).map _)
            rw [hi1]; exact b
    · rw [if_neg hq] at hrd; cases hrd

/-- Three records, one of them wrapped around, in 48 bytes. -/
example :
    let ops := [.registerProducer, .registerConsumer] ++ put [1, 2, 3, 4, 5, 6, 7, 8] ++ put [9, 10] ++
      [.startRead false, .finishRead] ++ put [11, 12, 13, 14, 15] ++ put [16, 17, 18] ++
      [.restart, .registerConsumer, .registerProducer, .startRead false, .finishRead]
    let t := nvHistory testCrc 48 true false true ops
    t.calm = true ∧ t.committed.length = 4 ∧ t.taken = [[1, 2, 3, 4, 5, 6, 7, 8], [9, 10]] ∧
    ((nvAfter testCrc 48 true false true ops).unread testCrc).map (·.2) =
      [[11, 12, 13, 14, 15], [16, 17, 18]] := by decide +kernel

/-- An abandoned reservation in the middle is skipped. -/
example :
    let ops := [.registerProducer, .registerConsumer] ++ put [1, 2] ++
      [.reserve 3 true, .write 0 [7, 7, 7], .restart, .registerProducer] ++ put [3, 4]
    let t := nvHistory testCrc 64 true false true ops
    t.calm = true ∧ t.holed = true ∧ t.committed.length = 2 ∧
    ((nvAfter testCrc 64 true false true ops).unread testCrc).map (·.2) = [[1, 2], [3, 4]] := by
  decide +kernel

/-! ### C06 -/

/-- C06, for `calm` histories: no reservation is abandoned while or before a cursor consumer is used, the
file is not altered, and a cursor consumer is registered at most once per opening unless it left nothing
unacknowledged (missing because false: `C06_hole_violated`, `C06_reregister_violated`).  The records acknowledged so far followed by those read and not acknowledged are the oldest
committed records, in order.  Nothing leaves the buffer before it is acknowledged (a new plain consumer
would get everything that was not).  The next cursor read returns the first committed record not read
yet, or `Unavailable` if there is none; an acknowledgement removes exactly the oldest record. -/
theorem C06_cursor_partial (K : Crc) (len : Nat) (hlen : len < 2 ^ 32) (crc blockOnRead : Bool)
    (ops : List NOp) (hz : NoZero K (NV.new K len crc false blockOnRead) ops) :
    let s := nvAfter K len crc false blockOnRead ops
    let t := nvHistory K len crc false blockOnRead ops
    t.calm = true → t.cursor = true →
    storesAll (t.committed.take (t.taken.length + t.ahead.length)) (t.taken ++ t.ahead) ∧
    storesAll (t.committed.drop t.taken.length) ((s.unread K).map (·.2)) ∧
    (∀ d, t.committed[t.taken.length + t.ahead.length]? = some d →
      ∃ s' x, s.cursorRead K false = (s', .ok x) ∧ stores d x.2 ∧ s'.unread K = s.unread K) ∧
    (t.committed[t.taken.length + t.ahead.length]? = none →
      ∃ s', s.cursorRead K false = (s', .err .unavailable)) ∧
    (t.ahead = [] → s.ack K = (s, .err .failedPrecondition)) ∧
    (t.ahead ≠ [] → ∃ s' w, s.ack K = (s', .ok w) ∧ s'.unread K = (s.unread K).tail) := by
  intro s t hc hcur
  obtain ⟨q, h, ho, _⟩ := nv_reach K len hlen crc blockOnRead ops hz hc
  have hcu := ho.cursor
  have hro := h.reader
  unfold readerOk at hro
  split at hcu
  · rename_i n hr
    rw [hr] at hro
    obtain ⟨a1, a2, a3, a4, a5⟩ := hcu
    obtain ⟨c1, c2⟩ := ho.clean a3
    rw [hr, if_neg (by simp)] at c2
    have hfil : q.items.filter (q.passes K) = q.items := List.filter_eq_self.2 c2
    have hl := ho.left
    have hview : viewOf (q.passes K) q.reader q.items = q.items.map (·.data) := by
      unfold viewOf; rw [hr, if_neg (by simp), hfil]
    rw [hview] at hl
    have hu : s.unread K = q.items.map q.slice := by rw [unread_nv h, hfil]
    have hal : t.ahead.length = n := by
      rw [show t.ahead = _ from a2, List.length_map, List.length_take]; omega
    have hlen2 : (t.committed.drop t.taken.length).length = q.items.length := by
      have := List.Forall₂.length_eq hl
      simpa using this
    have hget : ∀ k, q.items[k]? = none ↔ t.committed[t.taken.length + k]? = none := by
      intro k
      rw [List.getElem?_eq_none_iff, List.getElem?_eq_none_iff]
      rw [List.length_drop] at hlen2
      have := ho.done.1
      constructor <;> intro _ <;> (try omega)
    have hst : ∀ (k : Nat) (d : List (Option UInt8)) (it : Item), t.committed[t.taken.length + k]? = some d →
        q.items[k]? = some it → stores d it.data := by
      intro k d it e1 e2
      have := List.forall₂_iff_get.1 hl
      obtain ⟨_, h2⟩ := this
      have hk1 : k < (t.committed.drop t.taken.length).length := by
        rw [hlen2]
        rcases Nat.lt_or_ge k q.items.length with hlt | hge
        · exact hlt
        · rw [List.getElem?_eq_none hge] at e2; cases e2
      have hk2 : k < (q.items.map (·.data)).length := by rw [List.length_map, ← hlen2]; exact hk1
      have := h2 k hk1 hk2
      simp only [List.get_eq_getElem, List.getElem_drop, List.getElem_map] at this
      have hk3 : t.taken.length + k < t.committed.length := by rw [List.length_drop] at hk1; omega
      have hk4 : k < q.items.length := by rw [List.length_map] at hk2; exact hk2
      have f1 : t.committed[t.taken.length + k] = d := by
        rw [List.getElem?_eq_getElem hk3] at e1
        simpa using e1
      have f2 : q.items[k] = it := by
        rw [List.getElem?_eq_getElem hk4] at e2
        simpa using e2
      rw [f1, f2] at this
      exact this
    refine ⟨?_, by rw [hu, slice_data]; exact hl, ?_, ?_, ?_, ?_⟩
    · rw [List.take_add]
      refine List.rel_append ho.done.2 ?_
      rw [hal, show t.ahead = _ from a2, List.map_take]
      exact List.forall₂_take n hl
    · intro d hd
      rw [hal] at hd
      cases hin : q.items[n]? with
      | none => rw [hget n] at hin; rw [hin] at hd; cases hd
      | some it =>
        have hpass := c2 it (List.mem_of_getElem? hin)
        obtain ⟨q', h1, h2⟩ := cursorRead_sim h false
        unfold PQ.cursorRead at h1
        rw [hr] at h1
        simp only [hin, hpass, if_true] at h1
        obtain ⟨rfl, h1⟩ := h1
        refine ⟨(s.cursorRead K false).1, q.slice it, ?_, hst n d it hd hin, ?_⟩
        · rw [← show (s.cursorRead K false).2 = _ from h1]
        · rw [hu]
          have hq2 := unread_nv (h2 ho.nb)
          rw [show (s.cursorRead K false).1.unread K = _ from hq2]
          show (q.items.filter (q.passes K)).map q.slice = _
          rw [hfil]
    · intro hd
      rw [hal] at hd
      have hin := (hget n).2 hd
      obtain ⟨q', h1, _⟩ := cursorRead_sim h false
      unfold PQ.cursorRead at h1
      rw [hr] at h1
      simp only [hin] at h1
      refine ⟨(s.cursorRead K false).1, ?_⟩
      have : (s.cursorRead K false).2 = .err .unavailable := h1.2
      rw [← this]
    · intro e
      rw [e] at hal
      obtain ⟨_, _, _, hro⟩ := hro
      rw [← hal] at hro
      show NV.ack K (nvAfter K len crc false blockOnRead ops) = _
      simp only [NV.ack, hro, List.length_nil, List.take_zero, List.map_nil]
      rfl
    · intro e
      obtain ⟨m, rfl⟩ : ∃ m, n = m + 1 := by
        cases n with
        | zero => exact absurd (List.length_eq_zero_iff.1 hal) e
        | succ m => exact ⟨m, rfl⟩
      obtain ⟨q', h1, h2, _⟩ := ack_sim h
      unfold PQ.ack at h2
      rw [hr] at h2
      obtain ⟨rfl, w, h2⟩ := h2
      refine ⟨(s.ack K).1, w, ?_, ?_⟩
      · rw [← show (s.ack K).2 = _ from h2]
      · rw [hu, show (s.ack K).1.unread K = _ from unread_nv h1]
        show ((q.items.drop 1).filter (q.passes K)).map q.slice = _
        have : (q.items.drop 1).filter (q.passes K) = q.items.drop 1 :=
          List.filter_eq_self.2 (fun it hit => c2 it (List.mem_of_mem_drop hit))
        rw [this, List.drop_one, List.map_tail]
  · rw [show t.cursor = true from hcur] at hcu
    cases hcu.1

/-- C06, restarts: a cursor consumer registered after a restart starts at the oldest record that was
not acknowledged. -/
theorem C06_restart_partial (K : Crc) (len : Nat) (hlen : len < 2 ^ 32) (crc blockOnRead : Bool)
    (ops : List NOp) (hz : NoZero K (NV.new K len crc false blockOnRead) ops) :
    let s := nvAfter K len crc false blockOnRead ops
    let t := nvHistory K len crc false blockOnRead ops
    t.calm = true → t.reading = none → t.pending = none → t.holed = false →
    (∀ d, t.committed[t.taken.length]? = some d → ∃ x,
      (s.run K [.restart, .registerCursor, .cursorRead false]).2 =
        [.unit (.ok ()), .unit (.ok ()), .record (.ok x)] ∧ stores d x.2) ∧
    (t.committed[t.taken.length]? = none →
      (s.run K [.restart, .registerCursor, .cursorRead false]).2 =
        [.unit (.ok ()), .unit (.ok ()), .record (.err .unavailable)]) := by
  intro s t hc hrd hpe hho
  obtain ⟨q, h, ho, _⟩ := nv_reach K len hlen crc blockOnRead ops hz hc
  obtain ⟨s1, e1, h1⟩ := restart_sim h
  obtain ⟨c1, c2⟩ := ho.clean hho
  have hrd' : (nvHistory K len crc false blockOnRead ops).reading.isNone = true := by
    have hrd : (nvHistory K len crc false blockOnRead ops).reading = none := hrd
    rw [hrd]; rfl
  have c2 := ho.idle' (Or.inl hrd') c2
  have hview := (ho.idle (Or.inl hrd')).2
  have hfil : q.items.filter (q.passes K) = q.items := List.filter_eq_self.2 c2
  have hl := ho.left
  have hv2 : viewOf (q.passes K) none q.items = q.items.map (·.data) := by
    unfold viewOf; rw [if_neg (by simp), hfil]
  rw [hview, hv2] at hl
  obtain ⟨q2, h2, h3⟩ := h1.step' .registerCursor (by intro e; cases e)
  have how : ({ q.abandon with reader := none, cpos := some 0 } : PQ).overwrite = false := ho.ow
  unfold PQ.allows at h2
  rw [if_neg (by rw [how]; simp), if_pos (by rfl)] at h2
  obtain ⟨rfl, h2⟩ := h2
  have h3 := h3 ho.nb
  obtain ⟨q4, h5, _⟩ := cursorRead_sim h3 false
  have est : (s.run K [.restart, .registerCursor, .cursorRead false]).2 =
      [.unit (.ok ()), (s1.step' K .registerCursor).2,
        .record (((s1.step' K .registerCursor).1).cursorRead K false).2] := by
    have er : s.step K .restart = (s1, .unit (.ok ())) := by
      have e1 : s.reopen K = some s1 := e1
      simp [NV.step, NOp.usesProducer, NV.step', e1]
    simp only [NV.run, er]
    simp only [NV.step, NOp.usesProducer, Bool.and_false, Bool.false_eq_true, if_false]
    rfl
  rw [est, h2]
  have hhead : ∀ (x : Option Item), q.items[0]? = x → t.committed[t.taken.length]? = none ∧ x = none ∨
      ∃ d it, t.committed[t.taken.length]? = some d ∧ x = some it ∧ stores d it.data := by
    intro x hx
    have e0 : t.committed[t.taken.length]? = (t.committed.drop t.taken.length)[0]? := by simp
    rw [e0]
    cases hd : t.committed.drop t.taken.length with
    | nil =>
      rw [show (nvHistory K len crc false blockOnRead ops).committed.drop _ = _ from hd] at hl
      cases hi : q.items with
      | nil => rw [hi] at hx; left; exact ⟨rfl, hx.symm⟩
      | cons a l => rw [hi] at hl; cases hl
    | cons d ds =>
      rw [show (nvHistory K len crc false blockOnRead ops).committed.drop _ = _ from hd] at hl
      cases hi : q.items with
      | nil => rw [hi] at hl; cases hl
      | cons a l =>
        rw [hi] at hl hx
        cases hl with
        | cons u v => right; exact ⟨d, a, rfl, hx.symm, u⟩
  unfold PQ.cursorRead at h5
  have hit : ({ ({ q.abandon with reader := none, cpos := some 0 } : PQ) with
      reader := some (.cursor 0) } : PQ).items = q.items := rfl
  simp only at h5
  rcases hhead _ rfl with ⟨g1, g2⟩ | ⟨d, it, g1, g2, g3⟩
  · refine ⟨(fun d hd => by rw [g1] at hd; cases hd), fun _ => ?_⟩
    rw [show q.abandon.items[0]? = none from g2] at h5
    have := h5.2
    rw [show ((s1.step' K .registerCursor).1.cursorRead K false).2 = .err .unavailable from this]
  · refine ⟨fun d' hd => ?_, (fun hd => by rw [g1] at hd; cases hd)⟩
    rw [g1] at hd
    cases hd
    rw [show q.abandon.items[0]? = some it from g2] at h5
    have hp : q.passes K it = true := c2 it (List.mem_of_getElem? g2)
    simp only at h5
    rw [if_pos (by exact hp)] at h5
    exact ⟨_, by rw [h5.2], g3⟩

example :
    let ops := [.registerProducer, .registerCursor] ++ put [1, 2] ++ put [3] ++ put [4, 5] ++
      [.cursorRead false, .cursorRead false, .ack]
    let t := nvHistory testCrc 64 true false true ops
    t.calm = true ∧ t.cursor = true ∧ t.taken = [[1, 2]] ∧ t.ahead = [[3]] ∧ t.committed.length = 3 := by
  decide +kernel

/-- With record checksums, a plain consumer that goes away between `start_read` and `finish_read`
takes the record with it: `start_read` already zeroed its checksum. -/
theorem C05_midread_violated :
    let ops := [.registerProducer, .registerConsumer] ++ put [1, 2] ++ [.startRead false]
    let t := nvHistory testCrc 64 true false true (ops ++ [.dropConsumer])
    t.committed = [[some 1, some 2]] ∧ t.taken = [] ∧
    (nvAfter testCrc 64 true false true (ops ++ [.dropConsumer])).unread testCrc = [] ∧
    (nvAfter testCrc 64 true false true (ops ++ [.restart])).unread testCrc = [] := by decide +kernel

/-- Without record checksums, an abandoned reservation is delivered as soon as a later record is
committed. -/
theorem C05_uncommitted_violated :
    let ops := [.registerProducer] ++ put [1, 2] ++
      [.reserve 3 true, .write 0 [7, 7, 7], .restart, .registerProducer] ++ put [3, 4]
    let t := nvHistory testCrc 64 false false true ops
    t.committed = [[some 1, some 2], [some 3, some 4]] ∧
    ((nvAfter testCrc 64 false false true ops).unread testCrc).map (·.2) =
      [[1, 2], [7, 7, 7], [3, 4]] := by decide +kernel

/-- The process ended while a reservation was in flight.  The cursor consumer skips it without
acknowledging it, so that the acknowledgement of the record after it removes the wrong number of bytes
and an unacknowledged record ([5, 6, 7]) is lost. -/
theorem C06_hole_violated :
    let ops := [.registerProducer] ++ put [1, 2] ++
      [.reserve 3 true, .write 0 [7, 7, 7], .restart, .registerProducer, .registerCursor] ++
      put [3, 4] ++ put [5, 6, 7] ++ [.cursorRead false, .ack, .cursorRead false, .ack]
    let t := nvHistory testCrc 64 true false true ops
    t.committed.length = 3 ∧ t.taken = [[1, 2], [3, 4]] ∧
    (nvAfter testCrc 64 true false true ops).unread testCrc = [] := by decide +kernel

/-- A cursor consumer registered for the second time in one process does not start at the oldest
unacknowledged record (the TODO at non_volatile_ring_buffer.rs:944-947). -/
theorem C06_reregister_violated :
    let ops := [.registerProducer, .registerCursor] ++ put [1, 2] ++ put [3] ++
      [.cursorRead false, .dropConsumer, .registerCursor]
    let s := nvAfter testCrc 64 true false true ops
    (s.unread testCrc).map (·.2) = [[1, 2], [3]] ∧
    (s.cursorRead testCrc false).2 = .ok (⟨18, 1⟩, [3]) := by decide +kernel

end Verif.Buffer
