import Verif.Buffer.NVTraceLemmas
import Verif.Buffer.NVCorruptProps

/-
Crashes in the middle of a call.

The file is the record memory, the four index fields and the header checksum.  `NV.stores` lists the
stores to the file that a call makes, in program order; the record memory is stored byte by byte.
`stores_step` shows that the list is the right one: performing all of it gives the file that the call
leaves behind.  A crash leaves the file after some prefix of the list.

Assumptions: the index fields and the checksum are stored atomically and in program order as far as
the next process that maps the file can see (the process dies, the machine does not); stores of the
producer into its slice, which no lock protects, are calls of their own (`write`).
-/
namespace Verif.Buffer

/-- `FileHeader` (non_volatile_ring_buffer.rs:610-628) without the constant fields, and the memory
behind it. -/
structure File where
  mem : Mem
  nws : Nat
  cws : Option Nat
  lweb : Option Nat
  nrs : Option Nat
  hdr : Nat

def fileOf (c : Core) (h : Nat) : File := ⟨c.mem, c.nws, c.cws, c.lweb, c.nrs, h⟩

def NV.file (s : NV) : File := fileOf s.core s.hdrCrc

/-- The index fields, which the header checksum covers. -/
def File.fields (f : File) : Nat × Option Nat × Option Nat × Option Nat := (f.nws, f.cws, f.lweb, f.nrs)

def File.sum (K : Crc) (f : File) : Nat := K.hdr f.nws f.cws f.lweb f.nrs

/-- The process that had state `s` left the file `f`. -/
def NV.put (s : NV) (f : File) : NV :=
  { s with
    core := { s.core with mem := f.mem, nws := f.nws, cws := f.cws, lweb := f.lweb, nrs := f.nrs }
    hdrCrc := f.hdr }

inductive Store where
  | nws (v : Nat)
  | cws (v : Option Nat)
  | lweb (v : Option Nat)
  | nrs (v : Option Nat)
  | hdr (v : Nat)
  | byte (a : Nat) (b : UInt8)
  deriving DecidableEq, Repr

def Store.apply : Store → File → File
  | .nws v, f => { f with nws := v }
  | .cws v, f => { f with cws := v }
  | .lweb v, f => { f with lweb := v }
  | .nrs v, f => { f with nrs := v }
  | .hdr v, f => { f with hdr := v }
  | .byte a b, f => { f with mem := writeMem f.mem a [b] }

def applyAll (l : List Store) (f : File) : File := l.foldl (fun f x => x.apply f) f

/-- `copy_from_slice`, `fill`. -/
def bytesAt (a : Nat) : List UInt8 → List Store
  | [] => []
  | b :: bs => .byte a b :: bytesAt (a + 1) bs

/-- `zero_extra_data` (common_ring_buffer.rs:237-247). -/
def Core.zeroStores (c : Core) (n : Nat) : List Store := bytesAt n (List.replicate (c.xb - 4) 0)

/-- `advance_next_read(size, Cursor::No)` (common_ring_buffer.rs:596-632). -/
def Core.advStores (c : Core) (size : Nat) : List Store :=
  match c.nrs, c.cws with
  | some n, some w =>
    if n ≠ w then
      if c.lweb = some (n + size - 1) then [.lweb none, .nrs (some 0)]
      else [.nrs (some (n + size))]
    else [.nrs none, .cws none]
  | _, _ => []

/-- `write_header_crc32` (non_volatile_ring_buffer.rs:1023-1036). -/
def Core.hdrStore (K : Crc) (c : Core) : Store := .hdr (K.hdr c.nws c.cws c.lweb c.nrs)

/-- The index fields and the memory after the oldest record, of `sz` bytes at `n`, is overwritten. -/
def Core.overwriteHead (c : Core) (n sz : Nat) : Core :=
  (({ c with stats := { c.stats with
    recordsOverwritten := c.stats.recordsOverwritten + 1
    bytesOverwritten := c.stats.bytesOverwritten + sz } }).zeroExtra n).advanceRead (sz + c.xb)

/-- The loop of `advance_next_read_due_to_write` (common_ring_buffer.rs:358-446). -/
def Core.makeStores (c : Core) (t : Temp) : Nat → List Store
  | 0 => []
  | fuel + 1 =>
    match c.nrs with
    | none => []
    | some n =>
      match c.loadSize n with
      | none => []
      | some sz =>
        if c.intersectReservation t ⟨n, sz + c.xb⟩ then
          if !c.overwrite then []
          else
            c.zeroStores n ++ (c.advStores (sz + c.xb) ++ (c.overwriteHead n sz).makeStores t fuel)
        else []

/-- The end of `reserve` (non_volatile_ring_buffer.rs:173-196) with `finish_reservation`
(common_ring_buffer.rs:250-280), without the header checksum. -/
def Core.grantStores (c : Core) (t : Temp) (size : Nat) : List Store :=
  let lweb := match t.lweb with | some e => some e | none => c.lweb
  [.nws t.nws] ++ (match t.lweb with | some e => [.lweb (some e)] | none => []) ++
    bytesAt (c.sizeOffset t.range.start) (le32 size) ++ c.zeroStores t.range.start ++
    (match lweb with
      | some e => if t.range.start + size + c.xb - 1 > e then [.lweb none] else []
      | none => [])

/-- `takeSpace`.  A reservation that fails stores nothing (no record is overwritten before a failure,
as long as the sizes of the records are intact). -/
def NV.takeStores (K : Crc) (s : NV) (t : Temp) (size : Nat) (block : Bool) : List Store :=
  match s.core.advanceForWrite (s.hasRead || s.hasWrite) t block s.core.advanceFuel with
  | (c, .ok ()) =>
    s.core.makeStores t s.core.advanceFuel ++ (c.grantStores t size ++
      [(c.applyReservation t size).hdrStore K])
  | _ => []

def NV.passStores (K : Crc) (s : NV) (t : Temp) (size : Nat) (block : Bool) : List Store :=
  if s.readHit t then [] else s.takeStores K t size block

def NV.reserveStores (K : Crc) (s : NV) (size : Nat) (block : Bool) : List Store :=
  match s.producer with
  | some none =>
    match s.core.startReserve size with
    | (c, .ok actual) => ({ s with core := c }).passStores K (c.calcNextWriteStart actual) size block
    | _ => []
  | _ => []

def NV.resumeStores (K : Crc) (s : NV) : List Store :=
  match s.parked with
  | none => []
  | some p =>
    if s.core.shutdown then []
    else if p.onRead then s.passStores K p.t p.size p.block
    else s.takeStores K p.t p.size p.block

def NV.writeStores (s : NV) (off : Nat) (bytes : List UInt8) : List Store :=
  match s.producer with
  | some (some r) =>
    if off + bytes.length ≤ r.size - s.core.xb then bytesAt (r.start + s.core.xb + off) bytes else []
  | _ => []

/-- `ProducerImpl::commit` (non_volatile_ring_buffer.rs:199-263),
`advance_next_commited_write_start` (common_ring_buffer.rs:546-593). -/
def NV.commitStores (K : Crc) (s : NV) : List Store :=
  match s.producer with
  | some (some r) =>
    [.cws (some r.start)] ++ (match s.core.nrs with | none => [.nrs (some r.start)] | some _ => []) ++
      (if s.crc then bytesAt r.start (le32 (s.core.recordCrc K r)) else []) ++
      [(s.core.advanceCommitted r).hdrStore K]
  | _ => []

/-- `finish_read_common` and `write_header_crc32`. -/
def Core.finishStores (K : Crc) (c : Core) (r : Range) : List Store :=
  c.advStores r.size ++ [(c.advanceRead r.size).hdrStore K]

/-- `common_consumer_start_read` with `Cursor::No` (non_volatile_ring_buffer.rs:1076-1134). -/
def NV.loopStores (K : Crc) (s : NV) (block : Bool) : Nat → List Store
  | 0 => []
  | fuel + 1 =>
    match s.core.startRead s.hasWrite block none with
    | (c, .ok r) =>
      if s.crc then
        c.zeroStores r.start ++
          (if c.recordCrc K r = c.storedCrc r then []
          else
            let c' := c.zeroExtra r.start
            let c' := { c' with stats := { c'.stats with
              recordsCorrupted := c'.stats.recordsCorrupted + 1 } }
            c'.finishStores K r ++
              (({ s with core := (c'.finishRead s.hasWrite r).1 }).syncHdr K).loopStores K block fuel)
      else []
    | _ => []

def NV.startReadStores (K : Crc) (s : NV) (block : Bool) : List Store :=
  match s.consumer with
  | some (.plain none) => s.loopStores K block s.core.advanceFuel
  | _ => []

def NV.finishReadStores (K : Crc) (s : NV) : List Store :=
  match s.consumer with
  | some (.plain (some r)) => s.core.finishStores K r
  | _ => []

def NV.ackStores (K : Crc) (s : NV) : List Store :=
  match s.consumer with
  | some (.cursor (r :: _)) => s.core.finishStores K r
  | _ => []

/-- The stores of a call, in program order.  The other calls do not store to the file: registering,
dropping and locking only touch RAM, and so does reading with a cursor. -/
def NV.stores' (K : Crc) (s : NV) : NOp → List Store
  | .reserve size block => s.reserveStores K size block
  | .resume => s.resumeStores K
  | .write off bytes => s.writeStores off bytes
  | .commit => s.commitStores K
  | .startRead b => s.startReadStores K b
  | .finishRead => s.finishReadStores K
  | .ack => s.ackStores K
  | .alter addr b => [.byte addr b]
  | _ => []

def NV.stores (K : Crc) (s : NV) (op : NOp) : List Store :=
  if s.parked.isSome && op.usesProducer then [] else s.stores' K op

/-- The process dies after `k` stores of the call `op`: what it leaves behind. -/
def NV.crash (K : Crc) (s : NV) (op : NOp) (k : Nat) : NV :=
  s.put (applyAll ((s.stores K op).take k) s.file)

/-- The header checksum tells apart the index fields that the file has at any two points of the
call. -/
def NoCollide (K : Crc) (l : List Store) (f : File) : Prop :=
  ∀ i j, (applyAll (l.take i) f).sum K = (applyAll (l.take j) f).sum K →
    (applyAll (l.take i) f).fields = (applyAll (l.take j) f).fields

/-! ### Lemmas about stores -/

theorem applyAll_append (a b : List Store) (f : File) :
    applyAll (a ++ b) f = applyAll b (applyAll a f) := by
  simp [applyAll]

theorem applyAll_nil (f : File) : applyAll [] f = f := rfl
theorem applyAll_cons (x : Store) (l : List Store) (f : File) :
    applyAll (x :: l) f = applyAll l (x.apply f) := rfl

theorem NoCollide.suffix {K : Crc} {a b : List Store} {f : File} (h : NoCollide K (a ++ b) f) :
    NoCollide K b (applyAll a f) := by
  intro i j
  have := h (a.length + i) (a.length + j)
  simp only [List.take_append, Nat.add_sub_cancel_left, applyAll_append] at this
  rw [List.take_of_length_le (show a.length ≤ a.length + i by omega),
    List.take_of_length_le (show a.length ≤ a.length + j by omega)] at this
  exact this

theorem writeMem_cons (m : Mem) (a : Nat) (b : UInt8) (bs : List UInt8) :
    writeMem (writeMem m a [b]) (a + 1) bs = writeMem m a (b :: bs) := by
  funext i
  by_cases h1 : i < a
  · rw [writeMem_out _ _ _ _ (by omega), writeMem_out _ _ _ _ (by omega), writeMem_out _ _ _ _ (by omega)]
  · by_cases h2 : a + (bs.length + 1) ≤ i
    · rw [writeMem_out _ _ _ _ (by omega), writeMem_out _ _ _ _ (by simp; omega),
        writeMem_out _ _ _ _ (by simp; omega)]
    · by_cases h3 : i = a
      · subst h3
        rw [writeMem_out _ _ _ _ (by omega)]
        simp [writeMem]
      · have hh : ∃ k, i = a + 1 + k := ⟨i - a - 1, by omega⟩
        obtain ⟨k, rfl⟩ := hh
        have e1 : a + 1 + k - (a + 1) = k := by omega
        have e2 : a + 1 + k - a = k + 1 := by omega
        have e3 : k < bs.length := by omega
        have e4 : a ≤ a + 1 + k := by omega
        have e5 : a + 1 + k < a + (bs.length + 1) := by omega
        simp only [writeMem, e1, e2, List.length_cons, List.getD_cons_succ]
        rw [if_pos ⟨by omega, by omega⟩, if_pos ⟨by omega, by omega⟩]

theorem applyAll_bytes (bs : List UInt8) : ∀ (a : Nat) (f : File),
    applyAll (bytesAt a bs) f = { f with mem := writeMem f.mem a bs } := by
  induction bs with
  | nil =>
    intro a f
    have : writeMem f.mem a [] = f.mem := by funext i; exact writeMem_out _ _ _ _ (by simp; omega)
    rw [this]; rfl
  | cons b bs ih =>
    intro a f
    rw [bytesAt, applyAll_cons, ih]
    simp only [Store.apply, writeMem_cons]

theorem bytesAt_take (bs : List UInt8) : ∀ (a k : Nat), (bytesAt a bs).take k = bytesAt a (bs.take k) := by
  induction bs with
  | nil => intro a k; simp [bytesAt]
  | cons b bs ih =>
    intro a k
    cases k with
    | zero => rfl
    | succ k => simp [bytesAt, ih]

theorem bytesAt_length (bs : List UInt8) : ∀ (a : Nat), (bytesAt a bs).length = bs.length := by
  induction bs with
  | nil => intro a; rfl
  | cons b bs ih => intro a; simp [bytesAt, ih]

theorem adv_file (c : Core) (size h : Nat) :
    applyAll (c.advStores size) (fileOf c h) = fileOf (c.advanceRead size) h := by
  obtain ⟨len, xb, ow, mem, nws, cws, lweb, nrs, ncrs, d, pr, lc, sh, rd, st, pa⟩ := c
  cases nrs with
  | none => rfl
  | some n =>
    cases cws with
    | none => rfl
    | some w =>
      simp only [Core.advStores, Core.advanceRead]
      by_cases h1 : n ≠ w
      · by_cases h2 : lweb = some (n + size - 1)
        · simp only [if_pos h1, if_pos h2]; rfl
        · simp only [if_pos h1, if_neg h2]; rfl
      · simp only [if_neg h1]; rfl

theorem advStores_congr {c d : Core} (h1 : c.nrs = d.nrs) (h2 : c.cws = d.cws) (h3 : c.lweb = d.lweb)
    (n : Nat) : c.advStores n = d.advStores n := by
  unfold Core.advStores
  rw [h1, h2, h3]

theorem zero_file (c : Core) (n h : Nat) :
    applyAll (c.zeroStores n) (fileOf c h) = fileOf (c.zeroExtra n) h := by
  unfold Core.zeroStores
  rw [applyAll_bytes]
  rfl

theorem hdr_file (K : Crc) (c : Core) (h : Nat) :
    applyAll [c.hdrStore K] (fileOf c h) = fileOf c (K.hdr c.nws c.cws c.lweb c.nrs) := rfl

theorem advStores_zero (c : Core) (n size : Nat) :
    (c.zeroExtra n).advStores size = c.advStores size := rfl

theorem overwriteHead_file (c : Core) (n sz h : Nat) :
    applyAll (c.zeroStores n ++ c.advStores (sz + c.xb)) (fileOf c h) = fileOf (c.overwriteHead n sz) h := by
  rw [applyAll_append, zero_file]
  unfold Core.overwriteHead
  rw [← adv_file]
  rfl

theorem advanceForWrite_hit {c : Core} {busy block : Bool} {t : Temp} {n sz fuel : Nat}
    (hn : c.nrs = some n) (hl : c.loadSize n = some sz)
    (hi : c.intersectReservation t ⟨n, sz + c.xb⟩ = true) (ho : c.overwrite = true) :
    c.advanceForWrite busy t block (fuel + 1) = (c.overwriteHead n sz).advanceForWrite busy t block fuel := by
  rw [Core.advanceForWrite, Core.overwriteHead]
  simp only [hn, hl, hi, ho, if_true, Bool.not_true]
  rfl

theorem makeStores_hit {c : Core} {t : Temp} {n sz fuel : Nat}
    (hn : c.nrs = some n) (hl : c.loadSize n = some sz)
    (hi : c.intersectReservation t ⟨n, sz + c.xb⟩ = true) (ho : c.overwrite = true) :
    c.makeStores t (fuel + 1) = c.zeroStores n ++ c.advStores (sz + c.xb) ++
      (c.overwriteHead n sz).makeStores t fuel := by
  rw [Core.makeStores]
  simp only [hn, hl, hi, ho, if_true, Bool.not_true]
  simp

theorem makeStores_miss {c : Core} {t : Temp} {fuel : Nat}
    (h : ∀ n sz, c.nrs = some n → c.loadSize n = some sz →
      c.intersectReservation t ⟨n, sz + c.xb⟩ = false ∨ c.overwrite = false) :
    c.makeStores t (fuel + 1) = [] := by
  rw [Core.makeStores]
  split
  · rfl
  · rename_i n hn
    split
    · rfl
    · rename_i sz hl
      rcases h n sz hn hl with e | e
      · simp [e]
      · simp [e]

theorem make_file (busy : Bool) (t : Temp) (block : Bool) (h : Nat) : ∀ (fuel : Nat) (c c' : Core),
    c.advanceForWrite busy t block fuel = (c', .ok ()) →
    applyAll (c.makeStores t fuel) (fileOf c h) = fileOf c' h := by
  intro fuel
  induction fuel with
  | zero => intro c c' e; simp [Core.advanceForWrite] at e
  | succ fuel ih =>
    intro c c' e
    by_cases hh : ∃ n sz, c.nrs = some n ∧ c.loadSize n = some sz ∧
        c.intersectReservation t ⟨n, sz + c.xb⟩ = true ∧ c.overwrite = true
    · obtain ⟨n, sz, h1, h2, h3, h4⟩ := hh
      rw [advanceForWrite_hit h1 h2 h3 h4] at e
      rw [makeStores_hit h1 h2 h3 h4, applyAll_append, overwriteHead_file]
      exact ih _ _ e
    · rw [makeStores_miss]
      · rw [Core.advanceForWrite] at e
        split at e
        · cases e; rfl
        · rename_i n hn
          split at e
          · cases e
          · rename_i sz hl
            split at e
            · rename_i hi
              split at e
              · (repeat' split at e) <;> cases e
              · rename_i ho
                exact absurd ⟨n, sz, hn, hl, hi, by simpa using ho⟩ hh
            · cases e; rfl
      · intro n sz hn hl
        cases hi : c.intersectReservation t ⟨n, sz + c.xb⟩ with
        | false => exact Or.inl rfl
        | true =>
          cases ho : c.overwrite with
          | false => exact Or.inr rfl
          | true => exact absurd ⟨n, sz, hn, hl, hi, ho⟩ hh

theorem grant_file (c : Core) (t : Temp) (size h : Nat) :
    applyAll (c.grantStores t size) (fileOf c h) = fileOf (c.applyReservation t size) h := by
  unfold Core.grantStores Core.applyReservation Core.finishReservation Core.zeroStores
  simp only [applyAll_append, applyAll_bytes, applyAll_cons, applyAll_nil]
  obtain ⟨len, xb, ow, mem, nws, cws, lweb, nrs, ncrs, d, pr, lc, sh, rd, st, pa⟩ := c
  obtain ⟨r, n, l⟩ := t
  cases l with
  | some e =>
    by_cases hh : r.start + size + xb - 1 > e
    · simp [hh, fileOf, Store.apply, applyAll, Core.zeroExtra, Core.sizeOffset]
    · simp [hh, fileOf, Store.apply, applyAll, Core.zeroExtra, Core.sizeOffset]
  | none =>
    cases lweb with
    | none => rfl
    | some e =>
      by_cases hh : r.start + size + xb - 1 > e
      · simp [hh, fileOf, Store.apply, applyAll, Core.zeroExtra, Core.sizeOffset]
      · simp [hh, fileOf, Store.apply, applyAll, Core.zeroExtra, Core.sizeOffset]

theorem take_file (K : Crc) (s : NV) (t : Temp) (size : Nat) (block : Bool) {a : Range}
    (h : (s.takeSpace K t size block).2 = .ok a) :
    applyAll (s.takeStores K t size block) s.file = (s.takeSpace K t size block).1.file := by
  unfold NV.takeSpace at h ⊢
  unfold NV.takeStores
  cases e : s.core.advanceForWrite (s.hasRead || s.hasWrite) t block s.core.advanceFuel with
  | mk c r =>
    rw [e] at h
    cases r with
    | ok u =>
      simp only
      rw [applyAll_append, NV.file, make_file _ _ _ _ _ _ _ e, applyAll_append, grant_file, hdr_file]
      rfl
    | err e => cases h
    | blocked => cases h

/-! ### What the next process finds -/

/-- The next process reports data loss. -/
def Dies (K : Crc) (s : NV) (F : File) : Prop := (s.put F).reopen K = none

/-- The next process finds the queue `q`. -/
def Opens (K : Crc) (s : NV) (F : File) (q : PQ) : Prop :=
  ∃ s1, (s.put F).reopen K = some s1 ∧ NVSim K s1 { q.abandon with reader := none, cpos := some 0 }

structure SameCfg (s g : NV) : Prop where
  crc : s.crc = g.crc
  len : s.core.len = g.core.len
  xb : s.core.xb = g.core.xb
  ow : s.core.overwrite = g.core.overwrite
  pan : s.core.panicked = g.core.panicked

theorem SameCfg.refl (s : NV) : SameCfg s s := ⟨rfl, rfl, rfl, rfl, rfl⟩

theorem opens_of {K : Crc} {s g : NV} {q : PQ} (h : NVSim K g q) (hc : SameCfg s g) :
    Opens K s g.file q := by
  have hh : ¬ K.hdr (s.put g.file).core.nws (s.put g.file).core.cws (s.put g.file).core.lweb
      (s.put g.file).core.nrs ≠ (s.put g.file).hdrCrc := by
    show ¬ K.hdr g.core.nws g.core.cws g.core.lweb g.core.nrs ≠ g.hdrCrc
    rw [h.hdr]
    exact fun e => e rfl
  refine ⟨_, by unfold NV.reopen; rw [if_neg hh], ?_⟩
  have ha := h.core.abandon
  refine ⟨hc.crc.trans h.crc, ⟨hc.ow.trans ha.ow, hc.xb.trans ha.xb, ?_, ha.mem, ha.holes, ?_⟩, rfl, rfl,
    h.hdr, fun p e => by cases e⟩
  · exact ha.inv.frame hc.len hc.xb rfl rfl rfl rfl rfl h.core.inv.pend.symm hc.pan
  · intro k hk
    simp only [Option.some.injEq] at hk
    subst hk
    refine ⟨Nat.zero_le _, ?_⟩
    show g.core.nrs = _
    rw [h.core.inv.nrs]
    show _ = q.items[0]?.map _
    cases q.items <;> rfl

theorem dies_of {K : Crc} {s : NV} {F : File} (h : F.sum K ≠ F.hdr) : Dies K s F := by
  unfold Dies NV.reopen
  rw [if_pos]
  exact h

theorem dies {K : Crc} {l : List Store} {f : File} {k : Nat} {s : NV} (nc : NoCollide K l f)
    (hd : f.hdr = f.sum K) (h1 : (applyAll (l.take k) f).hdr = f.hdr)
    (h2 : (applyAll (l.take k) f).fields ≠ f.fields) : Dies K s (applyAll (l.take k) f) := by
  refine dies_of fun e => h2 ?_
  exact nc k 0 (by rw [e, h1, hd]; rfl)

/-- The low `j` bytes of `v` are zeroed. -/
def zp (j v : Nat) : Nat := v / 256 ^ j * 256 ^ j

/-- The items of `q` that are left when some corrupt ones at the front were removed and, if `D` holds,
possibly the first bytes of the checksum of the next one were zeroed. -/
structure Left (K : Crc) (D : Prop) (q q1 : PQ) : Prop where
  crc : q1.crc = q.crc
  ow : q1.overwrite = q.overwrite
  broken : q1.broken = q.broken
  items : ∃ n, (∀ x ∈ q.items.take n, q.passes K x = false) ∧
    (q1.items = q.items.drop n ∨ ∃ it rest j, D ∧ q.crc = true ∧ q.items.drop n = it :: rest ∧
      q1.items = { it with stored := zp j it.stored } :: rest)
  blank : (∀ it ∈ q.holes ++ q.pend, it.stored = 0) → ∀ it ∈ q1.holes ++ q1.pend, it.stored = 0

theorem Left.refl (K : Crc) (D : Prop) (q : PQ) : Left K D q q :=
  ⟨rfl, rfl, rfl, ⟨0, by simp, Or.inl rfl⟩, fun h => h⟩

/-- What can be found after a crash in a call that leads from `s` to `s'`. -/
def Found (K : Crc) (D : Prop) (s : NV) (q : PQ) (F F' : File) : Prop :=
  Dies K s F ∨ F = F' ∨ ∃ q1, Opens K s F q1 ∧ Left K D q q1

theorem found_before {K : Crc} {D : Prop} {s : NV} {q : PQ} (h : NVSim K s q) (F' : File) :
    Found K D s q s.file F' := Or.inr (Or.inr ⟨q, opens_of h (.refl s), .refl K D q⟩)

/-! ### Finishing a read -/

theorem adv_fields (c : Core) {n w size : Nat} (hn : c.nrs = some n) (hw : c.cws = some w)
    (hs : 0 < size) (h k : Nat) :
    (applyAll ((c.advStores size).take (k + 1)) (fileOf c h)).fields ≠ (fileOf c h).fields ∧
    (applyAll ((c.advStores size).take (k + 1)) (fileOf c h)).hdr = h := by
  obtain ⟨len, xb, ow, mem, nws, cws, lweb, nrs, ncrs, d, pr, lc, sh, rd, st, pa⟩ := c
  simp only at hn hw
  subst hn hw
  simp only [Core.advStores]
  by_cases h1 : n ≠ w
  · rw [if_pos h1]
    by_cases h2 : lweb = some (n + size - 1)
    · rw [if_pos h2]
      subst h2
      cases k with
      | zero => simp [applyAll, Store.apply, fileOf, File.fields]
      | succ k => simp [applyAll, Store.apply, fileOf, File.fields]
    · rw [if_neg h2]
      simp [applyAll, Store.apply, fileOf, File.fields]
      omega
  · rw [if_neg h1]
    cases k with
    | zero => simp [applyAll, Store.apply, fileOf, File.fields]
    | succ k => simp [applyAll, Store.apply, fileOf, File.fields]

theorem finish_file (K : Crc) (c : Core) (r : Range) (h : Nat) :
    applyAll (c.finishStores K r) (fileOf c h) = fileOf (c.advanceRead r.size)
      (K.hdr (c.advanceRead r.size).nws (c.advanceRead r.size).cws (c.advanceRead r.size).lweb
        (c.advanceRead r.size).nrs) := by
  unfold Core.finishStores
  rw [applyAll_append, adv_file, hdr_file]

/-- A crash between the first store and the header checksum is detected. -/
theorem finish_mid (K : Crc) (c : Core) {n w : Nat} (hn : c.nrs = some n) (hw : c.cws = some w)
    (r : Range) (hs : 0 < r.size) (h k : Nat) (hk : 0 < k) (hk2 : k < (c.finishStores K r).length) :
    (applyAll ((c.finishStores K r).take k) (fileOf c h)).fields ≠ (fileOf c h).fields ∧
    (applyAll ((c.finishStores K r).take k) (fileOf c h)).hdr = h := by
  unfold Core.finishStores at hk2 ⊢
  rw [List.length_append] at hk2
  simp only [List.length_cons, List.length_nil] at hk2
  rw [List.take_append_of_le_length (by omega)]
  obtain ⟨k, rfl⟩ : ∃ j, k = j + 1 := ⟨k - 1, by omega⟩
  exact adv_fields c hn hw hs h k

theorem QInv.cwsSome {c : Core} {q : PQ} (h : QInv c q) {it : Item} {rest : List Item}
    (hi : q.items = it :: rest) : c.nrs = some it.start ∧ ∃ w, c.cws = some w := by
  have h1 := h.inv.nrs
  have h2 := h.inv.cws
  rw [hi] at h1 h2
  refine ⟨by simpa [Item.range] using h1, ?_⟩
  rw [h2, List.map_cons]
  cases hr : rest.map (Item.range q.hb) with
  | nil => exact ⟨_, rfl⟩
  | cons a l =>
    rw [List.getLast?_cons_cons]
    simp [List.getLast?_eq_some_getLast]

theorem finish_found {K : Crc} {D : Prop} {s : NV} {q : PQ} (h : NVSim K s q) {it : Item} {rest : List Item}
    (hi : q.items = it :: rest) (k : Nat)
    (nc : NoCollide K (s.core.finishStores K (it.range q.hb)) s.file) :
    Found K D s q (applyAll ((s.core.finishStores K (it.range q.hb)).take k) s.file)
      (applyAll (s.core.finishStores K (it.range q.hb)) s.file) := by
  obtain ⟨hn, w, hw⟩ := h.core.cwsSome hi
  by_cases hk : k = 0
  · subst hk; exact found_before h _
  · by_cases hk2 : k < (s.core.finishStores K (it.range q.hb)).length
    · obtain ⟨e1, e2⟩ := finish_mid K s.core hn hw (it.range q.hb)
        (by have := PQ.hb_ge q; simp only [Item.range]; omega) s.hdrCrc k (by omega) hk2
      exact Or.inl (dies nc h.hdr e2 e1)
    · rw [List.take_of_length_le (by omega)]
      exact Or.inr (Or.inl rfl)

/-- `finish_read_common` leaves the file that `finishStores` says. -/
theorem finishRead_file (K : Crc) (s : NV) (busy : Bool) (r : Range) (cons : Option Cons)
    (hp : (s.core.advanceRead r.size).pendingReset = false) :
    (({ s with core := (s.core.finishRead busy r).1, consumer := cons }).syncHdr K).file =
      applyAll (s.core.finishStores K r) s.file := by
  obtain ⟨st, d, e⟩ := finishRead_frame s.core busy r hp
  rw [NV.file, NV.file, finish_file]
  simp only [NV.syncHdr, fileOf, e]

/-! ### Zeroing a checksum -/

/-- The checksum of the oldest item is damaged. -/
theorem part_zero {K : Crc} {s : NV} {q : PQ} (h : NVSim K s q) {it : Item} {rest : List Item}
    (hi : q.items = it :: rest) (hc : q.crc = true)
    (bs : List UInt8) (hb : bs.length ≤ 4) :
    NVSim K { s with core := { s.core with mem := writeMem s.core.mem it.start bs } }
      { q with items := { it with stored := ofLe32 (readMem (writeMem s.core.mem it.start bs) it.start 4) } ::
        rest } := by
  have h8 := PQ.hb_crc hc
  have hl : q.live = [] ++ it :: (rest ++ q.holes ++ q.pend) := by simp [PQ.live, hi]
  refine NVSim.mutate (q' := { q with items := { it with
      stored := ofLe32 (readMem (writeMem s.core.mem it.start bs) it.start 4) } :: rest }) h
    ⟨rfl, rfl, by rw [hi]; rfl, rfl, rfl, rfl, rfl⟩ _ ?_ ?_
  · intro x hx i hi4
    apply writeMem_out
    rw [h8]
    rw [hl] at hx
    rcases List.mem_cons.1 hx with rfl | hx
    · right; omega
    · have := h.core.apart hl hx
      omega
  · intro x hx
    have hx : x ∈ { it with stored := ofLe32 (readMem (writeMem s.core.mem it.start bs) it.start 4) } ::
        (rest ++ q.holes ++ q.pend) := by
      simpa [PQ.live, PQ.pend] using hx
    rcases List.mem_cons.1 hx with rfl | hx
    · have hm := h.core.mem it (PQ.items_live (by simp [hi]))
      refine ⟨?_, fun _ => rfl⟩
      rw [← hm.1]
      apply readMem_congr
      intro i _
      apply writeMem_out
      right
      rw [h8]
      simp only
      omega
    · have hd := h.core.apart hl hx
      refine (h.core.mem x (by rw [hl]; exact List.mem_cons_of_mem _ hx)).congr
        (fun i h1 h2 => (writeMem_out _ _ _ _ ?_).symm) (fun _ i h1 h2 => (writeMem_out _ _ _ _ ?_).symm)
      · omega
      · omega

theorem replicate_take0 (n k : Nat) : (List.replicate n (0 : UInt8)).take k = List.replicate (min k n) 0 := by
  simp [List.take_replicate]

theorem zp_mem (m : Mem) (a j : Nat) (hj : j ≤ 4) :
    ofLe32 (readMem (writeMem m a (List.replicate j 0)) a 4) = zp j (ofLe32 (readMem m a 4)) := by
  have hrd : ∀ m' : Mem, readMem m' a 4 = [m' a, m' (a + 1), m' (a + 2), m' (a + 3)] := by
    intro m'; rfl
  have h0 := (m a).toNat_lt
  have h1 := (m (a + 1)).toNat_lt
  have h2 := (m (a + 2)).toNat_lt
  have h3 := (m (a + 3)).toNat_lt
  rw [hrd, hrd]
  have hcase : j = 0 ∨ j = 1 ∨ j = 2 ∨ j = 3 ∨ j = 4 := by omega
  have hw : ∀ i, writeMem m a (List.replicate j 0) (a + i) = if i < j then 0 else m (a + i) := by
    intro i
    simp only [writeMem, List.length_replicate]
    by_cases hi : i < j
    · rw [if_pos ⟨by omega, by omega⟩, if_pos hi]; simp [hi]
    · rw [if_neg (by omega), if_neg hi]
  have hw0 := hw 0
  rw [Nat.add_zero] at hw0
  rw [hw0, hw, hw, hw]
  rcases hcase with rfl | rfl | rfl | rfl | rfl <;>
    simp [ofLe32, zp] <;> omega

/-- A crash while the checksum of the oldest item is zeroed. -/
theorem zero_found {K : Crc} {D : Prop} {s g : NV} {q : PQ} (h : NVSim K g q) (hcfg : SameCfg s g) {it : Item}
    {rest : List Item} (hi : q.items = it :: rest) (hc : q.crc = true) (hD : D)
    (k : Nat) (F' : File) :
    Found K D s q (applyAll ((g.core.zeroStores it.start).take k) g.file) F' := by
  have hxb : g.core.xb = 8 := by rw [h.core.xb, PQ.hb_crc hc]
  unfold Core.zeroStores
  rw [bytesAt_take, applyAll_bytes, hxb, replicate_take0]
  have hz := part_zero h hi hc (List.replicate (min k (8 - 4)) 0) (by simp; omega)
  have hzp := zp_mem g.core.mem it.start (min k 4) (by omega)
  rw [(h.core.mem it (PQ.items_live (by simp [hi]))).2 hc] at hzp
  rw [show min k (8 - 4) = min k 4 from rfl, hzp] at hz
  refine Or.inr (Or.inr ⟨_, opens_of hz ⟨hcfg.crc, hcfg.len, hcfg.xb, hcfg.ow, hcfg.pan⟩, rfl, rfl, rfl,
    ⟨0, by simp, Or.inr ⟨it, rest, min k 4, hD, hc, by simpa using hi, rfl⟩⟩, fun h => h⟩)

/-! ### Plain reads -/

theorem loopStores_none (K : Crc) {s : NV} (block : Bool) (fuel : Nat) (h1 : s.core.pendingReset = false)
    (h2 : s.core.nrs = none) : s.loopStores K block fuel = [] := by
  cases fuel with
  | zero => rfl
  | succ fuel =>
    obtain ⟨rd, r, e1, e2⟩ := startRead_none s.hasWrite block h1 h2
    rw [NV.loopStores, e1]
    unfold nothing at e2
    split at e2
    · rcases e2 with rfl | rfl <;> rfl
    · subst e2; rfl

theorem loop_found {K : Crc} (block : Bool) (s : NV) : ∀ (l : List Item) (fuel : Nat) (g : NV) (q : PQ) (k : Nat),
    NVSim K g q → SameCfg s g → q.items = l → q.reader = some (.plain false) → l.length < fuel →
    (NoCollide K (g.loopStores K block fuel) g.file →
      Found K True s q (applyAll ((g.loopStores K block fuel).take k) g.file)
        (applyAll (g.loopStores K block fuel) g.file)) ∧
    applyAll (g.loopStores K block fuel) g.file = (g.plainLoop K block fuel).1.file := by
  intro l
  induction l with
  | nil =>
    intro fuel g q k h hcfg hi hr hf
    obtain ⟨fuel, rfl⟩ : ∃ k, fuel = k + 1 := ⟨fuel - 1, by simp at hf; omega⟩
    have hnrs : g.core.nrs = none := by have := h.core.inv.nrs; simpa [hi] using this
    have hpend := h.core.inv.pend
    rw [loopStores_none K block _ hpend hnrs]
    refine ⟨?_, ?_⟩
    · simp only [List.take_nil, applyAll_nil]
      exact fun _ => Or.inr (Or.inl rfl)
    · rw [applyAll_nil]
      obtain ⟨rd, r, e1, e2⟩ := startRead_none g.hasWrite block hpend hnrs
      rw [plainLoop_succ, e1]
      have : ∀ c : Core, c = { g.core with readable := rd } → (g.withCore K c).file = g.file := by
        intro c hc
        rw [withCore_same (by rw [hc])]
        rw [hc]; rfl
      unfold nothing at e2
      split at e2
      · rcases e2 with rfl | rfl <;> exact (this _ rfl).symm
      · subst e2; exact (this _ rfl).symm
  | cons it rest ih =>
    intro fuel g q k h hcfg hi hr hf
    obtain ⟨fuel, rfl⟩ : ∃ k, fuel = k + 1 := ⟨fuel - 1, by simp at hf; omega⟩
    have hit : it ∈ q.items := by simp [hi]
    have hnrs : g.core.nrs = some it.start := by
      have := h.core.inv.nrs; simpa [hi, Item.range] using this
    have hpend := h.core.inv.pend
    have hload : g.core.loadSize it.start = some it.size := by
      have := h.core.inv.loadSize (r := it.range q.hb)
        (List.mem_append_left _ (List.mem_map_of_mem hit))
      rw [h.core.xb] at this
      simpa [Item.range] using this
    have hrange : (⟨it.start, it.size + g.core.xb⟩ : Range) = it.range q.hb := by
      rw [h.core.xb]; rfl
    have hcons : g.consumer = some (.plain none) := by
      have := h.reader; simpa [readerOk, hr] using this
    have hstart : g.core.startRead g.hasWrite block none = (g.core, .ok (it.range q.hb)) := by
      simp only [Core.startRead, Option.isSome_none, Bool.false_eq_true, if_false, hpend, hnrs, hload,
        hrange]
    have hls : g.loopStores K block (fuel + 1) = if g.crc then
        g.core.zeroStores it.start ++
          (if g.core.recordCrc K (it.range q.hb) = g.core.storedCrc (it.range q.hb) then []
          else
            (spoilStats (g.core.zeroExtra it.start)).finishStores K (it.range q.hb) ++
              (({ g with core := ((spoilStats (g.core.zeroExtra it.start)).finishRead g.hasWrite
                (it.range q.hb)).1 }).syncHdr K).loopStores K block fuel)
      else [] := by
      rw [NV.loopStores, hstart]
      rfl
    have hpl : g.plainLoop K block (fuel + 1) = if g.crc then
        if g.core.recordCrc K (it.range q.hb) = g.core.storedCrc (it.range q.hb) then
          ({ g with core := g.core.zeroExtra it.start, consumer := some (.plain (some (it.range q.hb))) },
            .ok (it.range q.hb))
        else
          NV.plainLoop K (({ g with core := ((spoilStats (g.core.zeroExtra it.start)).finishRead
            g.hasWrite (it.range q.hb)).1 }).syncHdr K) block fuel
      else ({ g with core := g.core, consumer := some (.plain (some (it.range q.hb))) },
        .ok (it.range q.hb)) := by
      rw [plainLoop_succ, hstart]
      rfl
    rw [hpl]
    rw [hls]
    cases hc : q.crc with
    | false =>
      have hs0 : ¬ g.crc = true := by rw [h.crc, hc]; simp
      rw [if_neg hs0, if_neg hs0]
      refine ⟨?_, rfl⟩
      simp only [List.take_nil, applyAll_nil]
      exact fun _ => Or.inr (Or.inl rfl)
    | true =>
      have hs1 : g.crc = true := by rw [h.crc, hc]
      rw [if_pos hs1, if_pos hs1]
      have hz := h.core.zero hi hc
      have hchk := h.core.check (K := K) hit hc
      by_cases hp : q.passes K it = true
      · rw [if_pos (hchk.2 hp), if_pos (hchk.2 hp), List.append_nil]
        refine ⟨fun _ => zero_found h hcfg hi hc trivial k _, ?_⟩
        rw [NV.file, zero_file]; rfl
      · have hne : ¬ (g.core.recordCrc K (it.range q.hb) = g.core.storedCrc (it.range q.hb)) :=
          fun e => hp (hchk.1 e)
        rw [if_neg hne, if_neg hne]
        have hpf : q.passes K it = false := by simpa using hp
        have hsp : q.spoil = { q with items := { it with stored := 0 } :: rest } := by
          simp [PQ.spoil, hc, hi]
        let c2 : Core := spoilStats (g.core.zeroExtra it.start)
        have hq2 : QInv c2 q.spoil := hz.frame _ _ _ _ _
        have hq3 := hq2.finish (it := { it with stored := 0 }) (rest := rest) (by rw [hsp]) g.hasWrite
        have hdr1 : q.spoil.drop 1 = q.drop 1 := by
          rw [hsp]; simp [PQ.drop, hi]
        rw [hdr1] at hq3
        have hq3 : QInv (c2.finishRead g.hasWrite (it.range q.hb)).1 (q.drop 1) := by
          have e : ({ it with stored := 0 } : Item).range q.spoil.hb = it.range q.hb := by
            rw [PQ.spoil_hb]; rfl
          rw [e] at hq3; exact hq3
        have hpop := (hq2.pop (it := { it with stored := 0 }) (rest := rest) (by rw [hsp])).inv.pend
        rw [PQ.spoil_hb] at hpop
        have hpop : (c2.advanceRead (it.range q.hb).size).pendingReset = false := hpop
        have hkeep := finishRead_keep c2 g.hasWrite (it.range q.hb) hpop
        have hs3 : NVSim K (({ g with core := (c2.finishRead g.hasWrite (it.range q.hb)).1 }).syncHdr K)
            (q.drop 1) := by
          refine ⟨h.crc, hq3, h.producer, ?_, rfl, ?_⟩
          · have : (q.drop 1).reader = some (.plain false) := hr
            simp only [readerOk, this]; exact hcons
          · exact parked_keep (s := g) h.parked hkeep.1 hkeep.2.1 hkeep.2.2.1 hkeep.2.2.2
        have hi3 : (q.drop 1).items = rest := by simp [PQ.drop, hi]
        have hcfg3 : SameCfg s (({ g with core := (c2.finishRead g.hasWrite (it.range q.hb)).1 }).syncHdr K) := by
          refine ⟨hcfg.crc, hcfg.len.trans hkeep.2.1.symm, hcfg.xb.trans hkeep.1.symm,
            hcfg.ow.trans hkeep.2.2.2.symm, ?_⟩
          rw [hcfg.pan, h.core.inv.panic]
          exact hq3.inv.panic.symm
        -- the files
        have f1 : applyAll (g.core.zeroStores it.start) g.file = ({ g with core := c2 } : NV).file := by
          rw [NV.file, zero_file]; rfl
        have f2 : applyAll (c2.finishStores K (it.range q.hb)) ({ g with core := c2 } : NV).file =
            (({ g with core := (c2.finishRead g.hasWrite (it.range q.hb)).1 }).syncHdr K).file :=
          (finishRead_file K { g with core := c2 } g.hasWrite (it.range q.hb) g.consumer hpop).symm
        obtain ⟨ih1, ih2⟩ := ih fuel _ (q.drop 1)
          (k - (g.core.zeroStores it.start).length - (c2.finishStores K (it.range q.hb)).length)
          hs3 hcfg3 hi3 hr (by simp at hf; omega)
        have hall : applyAll (g.core.zeroStores it.start ++ (c2.finishStores K (it.range q.hb) ++
            (({ g with core := (c2.finishRead g.hasWrite (it.range q.hb)).1 }).syncHdr K).loopStores K
              block fuel)) g.file =
            applyAll ((({ g with core := (c2.finishRead g.hasWrite (it.range q.hb)).1 }).syncHdr K).loopStores K
              block fuel) (({ g with core := (c2.finishRead g.hasWrite (it.range q.hb)).1 }).syncHdr K).file := by
          rw [applyAll_append, f1, applyAll_append, f2]
        refine ⟨fun nc => ?_, hall.trans ih2⟩
        have nc2 := nc.suffix
        rw [f1] at nc2
        have nc3 := nc2.suffix
        rw [f2] at nc3
        have ih1 := ih1 nc3
        rw [List.take_append, applyAll_append]
        by_cases hk1 : k ≤ (g.core.zeroStores it.start).length
        · rw [Nat.sub_eq_zero_of_le hk1, List.take_zero, applyAll_nil]
          exact zero_found h hcfg hi hc trivial k _
        · rw [List.take_of_length_le (show (g.core.zeroStores it.start).length ≤ k by omega), f1]
          rw [List.take_append, applyAll_append]
          by_cases hk2 : k - (g.core.zeroStores it.start).length < (c2.finishStores K (it.range q.hb)).length
          · rw [Nat.sub_eq_zero_of_le (Nat.le_of_lt hk2), List.take_zero, applyAll_nil]
            obtain ⟨hn, w, hw⟩ := hq2.cwsSome (it := { it with stored := 0 }) (rest := rest) (by rw [hsp])
            obtain ⟨e1, e2⟩ := finish_mid K c2 hn hw (it.range q.hb)
              (by have := PQ.hb_ge q; simp only [Item.range]; omega) g.hdrCrc
              (k - (g.core.zeroStores it.start).length) (by omega) hk2
            refine Or.inl ?_
            have := dies (s := s) (k := k - (g.core.zeroStores it.start).length) nc2 (by exact h.hdr)
              (by rw [List.take_append_of_le_length (Nat.le_of_lt hk2)]; exact e2)
              (by rw [List.take_append_of_le_length (Nat.le_of_lt hk2)]; exact e1)
            rw [List.take_append_of_le_length (Nat.le_of_lt hk2)] at this
            exact this
          · rw [List.take_of_length_le (show (c2.finishStores K (it.range q.hb)).length ≤
              k - (g.core.zeroStores it.start).length by omega), f2, hall]
            rcases ih1 with e | e | ⟨q1, e1, e2⟩
            · exact Or.inl e
            · exact Or.inr (Or.inl e)
            · refine Or.inr (Or.inr ⟨q1, e1, e2.crc, e2.ow, e2.broken, ?_, fun hh => e2.blank fun it hit => hh it ?_⟩)
              rotate_left
              · rcases List.mem_append.1 hit with hit | hit
                · refine List.mem_append_left _ ?_
                  simp only [PQ.drop, holesAfter] at hit
                  split at hit
                  · cases hit
                  · exact hit
                · exact List.mem_append_right _ hit
              obtain ⟨n, g1, g2⟩ := e2.items
              rw [PQ.passes_drop, hi3] at g1
              rw [hi3] at g2
              refine ⟨n + 1, ?_, ?_⟩
              · intro x hx
                rw [hi, List.take_succ_cons] at hx
                rcases List.mem_cons.1 hx with rfl | hx
                · exact hpf
                · exact g1 x hx
              · rw [hi, List.drop_succ_cons]
                exact g2

/-! ### Which fields are stored -/

def Store.isHdr : Store → Bool
  | .hdr _ => true
  | _ => false

def Store.isNrs : Store → Bool
  | .nrs _ => true
  | _ => false

def Store.isCws : Store → Bool
  | .cws _ => true
  | _ => false

theorem applyAll_hdr : ∀ (l : List Store) (f : File), (∀ x ∈ l, x.isHdr = false) →
    (applyAll l f).hdr = f.hdr
  | [], _, _ => rfl
  | x :: l, f, h => by
    rw [applyAll_cons, applyAll_hdr l _ (fun y hy => h y (List.mem_cons_of_mem _ hy))]
    have := h x (by simp)
    cases x <;> first | rfl | (simp [Store.isHdr] at this)

theorem applyAll_nrs : ∀ (l : List Store) (f : File), (∀ x ∈ l, x.isNrs = false) →
    (applyAll l f).nrs = f.nrs
  | [], _, _ => rfl
  | x :: l, f, h => by
    rw [applyAll_cons, applyAll_nrs l _ (fun y hy => h y (List.mem_cons_of_mem _ hy))]
    have := h x (by simp)
    cases x <;> first | rfl | (simp [Store.isNrs] at this)

theorem applyAll_cws : ∀ (l : List Store) (f : File), (∀ x ∈ l, x.isCws = false) →
    (applyAll l f).cws = f.cws
  | [], _, _ => rfl
  | x :: l, f, h => by
    rw [applyAll_cons, applyAll_cws l _ (fun y hy => h y (List.mem_cons_of_mem _ hy))]
    have := h x (by simp)
    cases x <;> first | rfl | (simp [Store.isCws] at this)

theorem applyAll_mem (i : Nat) : ∀ (l : List Store) (f : File), (∀ a b, Store.byte a b ∈ l → a ≠ i) →
    (applyAll l f).mem i = f.mem i
  | [], _, _ => rfl
  | x :: l, f, h => by
    rw [applyAll_cons, applyAll_mem i l _ (fun a b hy => h a b (List.mem_cons_of_mem _ hy))]
    cases x with
    | byte a b =>
      have := h a b (by simp)
      exact writeMem_out _ _ _ _ (by simp; omega)
    | _ => rfl

theorem mem_bytesAt {x : Store} : ∀ {bs : List UInt8} {a : Nat}, x ∈ bytesAt a bs →
    ∃ i b, x = .byte i b ∧ a ≤ i ∧ i < a + bs.length
  | [], _, h => by cases h
  | b :: bs, a, h => by
    rcases List.mem_cons.1 h with rfl | h
    · exact ⟨a, b, rfl, Nat.le_refl _, by simp⟩
    · obtain ⟨i, b', e, h1, h2⟩ := mem_bytesAt h
      exact ⟨i, b', e, by omega, by simp; omega⟩

/-- The stores that grant a reservation do not touch the read pointer, the header checksum, the
memory outside of the header of the record. -/
theorem mem_grantStores {c : Core} {t : Temp} {size : Nat} {x : Store} (h : x ∈ c.grantStores t size)
    (hxb : 4 ≤ c.xb) :
    x.isHdr = false ∧ x.isNrs = false ∧
      ∀ a b, x = .byte a b → t.range.start ≤ a ∧ a < t.range.start + c.xb := by
  unfold Core.grantStores at h
  simp only [List.mem_append, List.mem_singleton] at h
  rcases h with (((h | h) | h) | h) | h
  · subst h; exact ⟨rfl, rfl, fun a b e => by cases e⟩
  · split at h
    · rw [List.mem_singleton] at h; subst h; exact ⟨rfl, rfl, fun a b e => by cases e⟩
    · cases h
  · obtain ⟨i, b, rfl, h1, h2⟩ := mem_bytesAt h
    refine ⟨rfl, rfl, fun a b e => ?_⟩
    cases e
    simp only [Core.sizeOffset, le32_length] at h1 h2
    omega
  · obtain ⟨i, b, rfl, h1, h2⟩ := mem_bytesAt h
    refine ⟨rfl, rfl, fun a b e => ?_⟩
    cases e
    simp only [List.length_replicate] at h1 h2
    omega
  · split at h
    · split at h
      · rw [List.mem_singleton] at h; subst h; exact ⟨rfl, rfl, fun a b e => by cases e⟩
      · cases h
    · cases h

theorem mem_zeroStores {c : Core} {n : Nat} {x : Store} (h : x ∈ c.zeroStores n) :
    x.isHdr = false ∧ x.isNrs = false := by
  obtain ⟨i, b, rfl, _, _⟩ := mem_bytesAt h
  exact ⟨rfl, rfl⟩

theorem mem_advStores {c : Core} {n : Nat} {x : Store} (h : x ∈ c.advStores n) : x.isHdr = false := by
  unfold Core.advStores at h
  cases hx : x with
  | hdr v => subst hx; (repeat' split at h) <;> simp at h
  | _ => rfl

theorem mem_makeStores {t : Temp} {x : Store} : ∀ {fuel : Nat} {c : Core}, x ∈ c.makeStores t fuel →
    x.isHdr = false := by
  intro fuel
  induction fuel with
  | zero => intro c h; cases h
  | succ fuel ih =>
    intro c h
    unfold Core.makeStores at h
    split at h
    · cases h
    · split at h
      · cases h
      · split at h
        · split at h
          · cases h
          · rcases List.mem_append.1 h with h | h
            · exact (mem_zeroStores h).1
            · rcases List.mem_append.1 h with h | h
              · exact mem_advStores h
              · exact ih h
        · cases h

theorem adv_nrs (c : Core) (size h k : Nat) :
    (applyAll ((c.advStores size).take k) (fileOf c h)).nrs = c.nrs ∨
    (applyAll ((c.advStores size).take k) (fileOf c h)).nrs = (c.advanceRead size).nrs := by
  by_cases hk : (c.advStores size).length ≤ k
  · right
    rw [List.take_of_length_le hk, adv_file]; rfl
  · obtain ⟨len, xb, ow, mem, nws, cws, lweb, nrs, ncrs, d, pr, lc, sh, rd, st, pa⟩ := c
    cases nrs with
    | none => left; simp [Core.advStores] at hk
    | some n =>
      cases cws with
      | none => left; simp [Core.advStores] at hk
      | some w =>
        simp only [Core.advStores, Core.advanceRead] at hk ⊢
        by_cases h1 : n ≠ w
        · by_cases h2 : lweb = some (n + size - 1)
          · rw [if_pos h1, if_pos h2] at hk ⊢
            left
            simp at hk
            match k, hk with
            | 0, _ => rfl
            | 1, _ => rfl
          · rw [if_pos h1, if_neg h2] at hk ⊢
            left
            simp at hk
            subst hk; rfl
        · rw [if_neg h1] at hk ⊢
          simp at hk
          match k, hk with
          | 0, _ => left; rfl
          | 1, _ => right; rw [if_neg h1]; rfl

/-- While records are overwritten the read pointer is at one of them or at nothing. -/
theorem make_nrs {t : Temp} (h : Nat) : ∀ (fuel : Nat) {c : Core} {U O : List Range} (k : Nat), CoreInv c U O →
    (applyAll ((c.makeStores t fuel).take k) (fileOf c h)).nrs = none ∨
    ∃ r ∈ U, (applyAll ((c.makeStores t fuel).take k) (fileOf c h)).nrs = some r.start := by
  intro fuel
  induction fuel with
  | zero =>
    intro c U O k hc
    have := hc.nrs
    simp only [Core.makeStores, List.take_nil, applyAll_nil]
    show c.nrs = none ∨ ∃ r ∈ U, c.nrs = some r.start
    cases U with
    | nil => left; simpa using this
    | cons r U => right; exact ⟨r, by simp, by simpa using this⟩
  | succ fuel ih =>
    intro c U O k hc
    have hnrs := hc.nrs
    have base : c.nrs = none ∨ ∃ r ∈ U, c.nrs = some r.start := by
      cases U with
      | nil => left; simpa using hnrs
      | cons r U => right; exact ⟨r, by simp, by simpa using hnrs⟩
    by_cases hh : ∃ n sz, c.nrs = some n ∧ c.loadSize n = some sz ∧
        c.intersectReservation t ⟨n, sz + c.xb⟩ = true ∧ c.overwrite = true
    · obtain ⟨n, sz, h1, h2, h3, h4⟩ := hh
      cases U with
      | nil => rw [h1] at hnrs; simp at hnrs
      | cons r U =>
        rw [h1] at hnrs
        simp only [List.head?_cons, Option.map_some, Option.some.injEq] at hnrs
        subst hnrs
        have hload := hc.loadSize (r := r) (by simp)
        rw [h2] at hload
        have hsz := (hc.hdr r (by simp)).1
        simp only [Option.some.injEq] at hload
        have hx := hc.xb4
        have hrs : sz + c.xb = r.size := by omega
        have hz := hc.zeroExtra
        have hz' : CoreInv (({ c with stats := { c.stats with
            recordsOverwritten := c.stats.recordsOverwritten + 1
            bytesOverwritten := c.stats.bytesOverwritten + sz } } : Core).zeroExtra r.start) (r :: U) O :=
          hz.frame rfl rfl rfl rfl rfl rfl rfl rfl rfl
        have ha := hz'.advanceRead
        rw [← hrs] at ha
        have ha : CoreInv (c.overwriteHead r.start sz) U O := ha
        rw [makeStores_hit h1 h2 h3 h4, List.take_append, applyAll_append]
        by_cases hk : k ≤ (c.zeroStores r.start ++ c.advStores (sz + c.xb)).length
        · rw [Nat.sub_eq_zero_of_le hk, List.take_zero, applyAll_nil, List.take_append, applyAll_append]
          by_cases hk2 : k ≤ (c.zeroStores r.start).length
          · rw [Nat.sub_eq_zero_of_le hk2, List.take_zero, applyAll_nil]
            rw [applyAll_nrs _ _ (fun x hx => (mem_zeroStores (List.mem_of_mem_take hx)).2)]
            exact base
          · rw [List.take_of_length_le (show (c.zeroStores r.start).length ≤ k by omega), zero_file]
            rw [← advStores_zero c r.start]
            rcases adv_nrs (c.zeroExtra r.start) (sz + c.xb) h (k - (c.zeroStores r.start).length) with e | e
            · rw [e]; exact base
            · rw [e]
              have h5 := hz.advanceRead
              rw [← hrs] at h5
              have h6 := h5.nrs
              cases U with
              | nil => left; simpa using h6
              | cons r' U => right; exact ⟨r', by simp, by simpa using h6⟩
        · rw [List.take_of_length_le (l := c.zeroStores r.start ++ c.advStores (sz + c.xb)) (by omega),
            overwriteHead_file]
          rcases ih (k - (c.zeroStores r.start ++ c.advStores (sz + c.xb)).length) ha with e | ⟨r', hr', e⟩
          · exact Or.inl e
          · exact Or.inr ⟨r', List.mem_cons_of_mem _ hr', e⟩
    · rw [makeStores_miss]
      · rw [List.take_nil, applyAll_nil]; exact base
      · intro n sz hn hl
        cases hi : c.intersectReservation t ⟨n, sz + c.xb⟩ with
        | false => exact Or.inl rfl
        | true =>
          cases ho : c.overwrite with
          | false => exact Or.inr rfl
          | true => exact absurd ⟨n, sz, hn, hl, hi, ho⟩ hh

/-! ### Reservations -/

/-- If the reservation does not need the space of the oldest record, it needs no space that is in
use. -/
theorem live_free {K : Crc} {s : NV} {q : PQ} (h : NVSim K s q) (hp : s.producer = some none)
    {size : Nat} (h0 : 0 < size) (hn : size + s.core.xb ≤ s.core.len)
    (hh : ∀ n sz, s.core.nrs = some n → s.core.loadSize n = some sz →
      s.core.intersectReservation (s.core.calcNextWriteStart (size + s.core.xb)) ⟨n, sz + s.core.xb⟩ = false) :
    ∀ it ∈ q.live, Disj ⟨placeOf s.core.len s.core.nws (size + s.core.xb), size + s.core.xb⟩ (it.range q.hb) := by
  have hqp := h.producerNone hp
  have hpend : q.pend = [] := by simp [PQ.pend, hqp]
  have hx := h.core.inv.xb4
  intro it hit
  have hin := h.core.itemIn hit
  refine disj_of_not_needs (by simp only [Item.range]; rw [← h.core.xb]; omega) (by omega) ?_
  cases hi : q.items with
  | nil =>
    have := h.core.holes hi
    simp [PQ.live, hi, this, hpend] at hit
  | cons a rest =>
    have ha : a ∈ q.live := PQ.items_live (by simp [hi])
    obtain ⟨e1, _⟩ := h.core.cwsSome hi
    have e2 := h.core.inv.loadSize (r := a.range q.hb)
      (List.mem_append_left _ (by rw [hi]; simp))
    have e3 := hh _ _ e1 e2
    have e4 : (⟨a.start, (a.range q.hb).size - s.core.xb + s.core.xb⟩ : Range) = a.range q.hb := by
      simp only [Item.range, h.core.xb, Range.mk.injEq, true_and]; omega
    rw [e4, needsHead h h0 hn ha] at e3
    have hl := h.core.layout
    rw [PQ.live, hi] at hl
    rw [PQ.live, hi] at hit
    simp only [List.append_assoc, List.map_append, List.map_cons, List.cons_append] at hl hit
    rcases List.mem_cons.1 hit with rfl | hit
    · exact e3
    · refine needs_head hn hl e3 _ ?_
      rw [← List.map_append, ← List.map_append]
      exact List.mem_map_of_mem hit

theorem placeOf_calc (c : Core) (n : Nat) : (c.calcNextWriteStart n).range.start = placeOf c.len c.nws n := by
  rw [calc_range]

/-- Memory outside of everything in use changed. -/
theorem NVSim.scratch {K : Crc} {s : NV} {q : PQ} (h : NVSim K s q) (m : Mem) (a b : Nat)
    (ho : ∀ i, i < a ∨ b ≤ i → m i = s.core.mem i)
    (hd : ∀ it ∈ q.live, it.start + it.size + q.hb ≤ a ∨ b ≤ it.start) :
    NVSim K { s with core := { s.core with mem := m } } q := by
  have h4 := PQ.hb_ge q
  refine NVSim.mutate (q' := q) h ⟨rfl, rfl, rfl, rfl, rfl, rfl, rfl⟩ m ?_ ?_
  · intro x hx i hi
    have := hd x hx
    exact ho _ (by omega)
  · intro x hx
    have := hd x hx
    refine (h.core.mem x hx).congr (fun i h1 h2 => (ho _ ?_).symm) (fun _ i h1 h2 => (ho _ ?_).symm)
    · omega
    · omega

theorem take_found {K : Crc} {s : NV} {q : PQ} (h : NVSim K s q) (hp : s.producer = some none)
    {size : Nat} (h0 : 0 < size) (hn : size + s.core.xb ≤ s.core.len) (block : Bool) (k : Nat)
    (nc : NoCollide K (s.takeStores K (s.core.calcNextWriteStart (size + s.core.xb)) size block) s.file) :
    Found K (q.overwrite = true) s q
      (applyAll ((s.takeStores K (s.core.calcNextWriteStart (size + s.core.xb)) size block).take k) s.file)
      (applyAll (s.takeStores K (s.core.calcNextWriteStart (size + s.core.xb)) size block) s.file) := by
  generalize ht : s.core.calcNextWriteStart (size + s.core.xb) = t at nc ⊢
  by_cases hk : (s.takeStores K t size block).length ≤ k
  · rw [List.take_of_length_le hk]; exact Or.inr (Or.inl rfl)
  unfold NV.takeStores at nc hk ⊢
  cases hres : s.core.advanceForWrite (s.hasRead || s.hasWrite) t block s.core.advanceFuel with
  | mk c r =>
    rw [hres] at nc hk
    cases r with
    | err e => simp at hk
    | blocked => simp at hk
    | ok u =>
      simp only at nc hk ⊢
      rw [← List.append_assoc] at nc hk ⊢
      rw [List.length_append, List.length_singleton] at hk
      -- the header checksum is the last store
      have htake : ((s.core.makeStores t s.core.advanceFuel ++ c.grantStores t size) ++
          [(c.applyReservation t size).hdrStore K]).take k =
          (s.core.makeStores t s.core.advanceFuel ++ c.grantStores t size).take k :=
        List.take_append_of_le_length (by omega)
      have hcx : c.xb = s.core.xb := by
        cases ho : q.overwrite with
        | true =>
          obtain ⟨n, c', _, e, hx, _⟩ :=
            h.core.makeRoom (h.producerNone hp) h0 hn ho (s.hasRead || s.hasWrite) block
          rw [ht, hres] at e
          injection e with e _
          rw [e]; exact hx
        | false =>
          have hb := h.core.inv.advanceForWriteBlock (by rw [h.core.ow]; exact ho)
            (n := size + s.core.xb) (by omega) hn (s.hasRead || s.hasWrite) block (2 * s.core.len + 3)
          rw [ht, show 2 * s.core.len + 3 + 1 = s.core.advanceFuel from rfl, hres] at hb
          exact congrArg Core.xb hb.1
      have hx4 : 4 ≤ c.xb := by rw [hcx]; exact h.core.inv.xb4
      have hhdr : (applyAll ((s.core.makeStores t s.core.advanceFuel ++ c.grantStores t size).take k)
          s.file).hdr = s.file.hdr := by
        refine applyAll_hdr _ _ fun x hx => ?_
        rcases List.mem_append.1 (List.mem_of_mem_take hx) with hx | hx
        · exact mem_makeStores hx
        · exact (mem_grantStores hx hx4).1
      have hdies : (applyAll ((s.core.makeStores t s.core.advanceFuel ++ c.grantStores t size).take k)
          s.file).fields ≠ s.file.fields →
          Found K (q.overwrite = true) s q (applyAll ((s.core.makeStores t s.core.advanceFuel ++ c.grantStores t size).take k) s.file)
            (applyAll ((s.core.makeStores t s.core.advanceFuel ++ c.grantStores t size) ++
              [(c.applyReservation t size).hdrStore K]) s.file) := by
        intro hf
        refine Or.inl ?_
        rw [← htake] at hf hhdr ⊢
        exact dies nc h.hdr hhdr hf
      rw [htake]
      by_cases hh : ∃ n sz, s.core.nrs = some n ∧ s.core.loadSize n = some sz ∧
          s.core.intersectReservation t ⟨n, sz + s.core.xb⟩ = true ∧ s.core.overwrite = true
      · obtain ⟨n, sz, e1, e2, e3, e4⟩ := hh
        rw [show s.core.advanceFuel = 2 * s.core.len + 3 + 1 from rfl, makeStores_hit e1 e2 e3 e4] at hdies ⊢
        have hnrs := h.core.inv.nrs
        cases hi : q.items with
        | nil => rw [hi, e1] at hnrs; simp at hnrs
        | cons it rest =>
          obtain ⟨f1, w, f2⟩ := h.core.cwsSome hi
          rw [e1] at f1
          simp only [Option.some.injEq] at f1
          subst f1
          have hinv := h.core.inv
          rw [hi, List.map_cons] at hinv
          have hload := hinv.loadSize (r := it.range q.hb) (by simp)
          rw [show (it.range q.hb).start = it.start from rfl, e2] at hload
          have hxb := h.core.xb
          have hrs : sz + s.core.xb = (it.range q.hb).size := by
            simp only [Option.some.injEq, Item.range] at hload ⊢; omega
          by_cases hk1 : k ≤ (s.core.zeroStores it.start).length
          · rw [List.append_assoc, List.append_assoc, List.take_append_of_le_length hk1]
            cases hc : q.crc with
            | true => exact zero_found h (.refl s) hi hc (by rw [← h.core.ow]; exact e4) k _
            | false =>
              have : s.core.zeroStores it.start = [] := by
                have : q.hb = 4 := by simp [PQ.hb, hc]
                unfold Core.zeroStores
                rw [hxb, this]; rfl
              rw [this, List.take_nil]
              exact found_before h _
          · refine hdies ?_
            rw [List.append_assoc, List.append_assoc, List.take_append,
              List.take_of_length_le (l := s.core.zeroStores it.start) (by omega), applyAll_append, NV.file,
              zero_file]
            obtain ⟨j, hj⟩ : ∃ j, k - (s.core.zeroStores it.start).length = j + 1 :=
              ⟨k - (s.core.zeroStores it.start).length - 1, by omega⟩
            rw [hj]
            by_cases hk2 : j + 1 ≤ (s.core.advStores (sz + s.core.xb)).length
            · rw [List.take_append_of_le_length hk2]
              have := adv_fields (s.core.zeroExtra it.start) (n := it.start) (w := w) e1 f2
                (size := sz + s.core.xb) (by have := h.core.inv.xb4; omega) s.hdrCrc j
              exact this.1
            · rw [List.take_append, List.take_of_length_le (l := s.core.advStores (sz + s.core.xb)) (by omega),
                applyAll_append, ← zero_file,
                ← applyAll_append (s.core.zeroStores it.start) (s.core.advStores (sz + s.core.xb)),
                overwriteHead_file]
              have hz' : CoreInv (({ s.core with stats := { s.core.stats with
                  recordsOverwritten := s.core.stats.recordsOverwritten + 1
                  bytesOverwritten := s.core.stats.bytesOverwritten + sz } } : Core).zeroExtra it.start)
                  (it.range q.hb :: rest.map (Item.range q.hb)) ((q.holes ++ q.pend).map (Item.range q.hb)) :=
                hinv.zeroExtra.frame rfl rfl rfl rfl rfl rfl rfl rfl rfl
              have ha := hz'.advanceRead
              rw [← hrs] at ha
              have ha : CoreInv (s.core.overwriteHead it.start sz) (rest.map (Item.range q.hb))
                ((q.holes ++ q.pend).map (Item.range q.hb)) := ha
              have hm := make_nrs (t := t) s.hdrCrc (2 * s.core.len + 3)
                (j + 1 - (s.core.advStores (sz + s.core.xb)).length) ha
              rw [List.take_append, applyAll_append]
              intro hf
              have hf : (applyAll _ _).nrs = s.core.nrs := congrArg (fun x => x.2.2.2) hf
              rw [applyAll_nrs _ _ (fun x hx => (mem_grantStores (List.mem_of_mem_take hx) hx4).2.1), e1] at hf
              rcases hm with hm | ⟨r', hr', hm⟩
              · rw [hm] at hf; cases hf
              · rw [hm] at hf
                simp only [Option.some.injEq] at hf
                exact hinv.layout.head_ne (List.mem_append_left _ hr') hf.symm
      · have hmiss : s.core.makeStores t s.core.advanceFuel = [] := by
          refine makeStores_miss fun n sz hn hl => ?_
          cases hi : s.core.intersectReservation t ⟨n, sz + s.core.xb⟩ with
          | false => exact Or.inl rfl
          | true =>
            cases ho : s.core.overwrite with
            | false => exact Or.inr rfl
            | true => exact absurd ⟨n, sz, hn, hl, hi, ho⟩ hh
        have hfree : ∀ n sz, s.core.nrs = some n → s.core.loadSize n = some sz →
            s.core.intersectReservation t ⟨n, sz + s.core.xb⟩ = false := by
          intro n sz hn hl
          cases hi : s.core.intersectReservation t ⟨n, sz + s.core.xb⟩ with
          | false => rfl
          | true =>
            cases ho : s.core.overwrite with
            | true => exact absurd ⟨n, sz, hn, hl, hi, ho⟩ hh
            | false =>
              rw [show s.core.advanceFuel = 2 * s.core.len + 3 + 1 from rfl, Core.advanceForWrite] at hres
              simp only [hn, hl, hi, ho, if_true, Bool.not_false] at hres
              (repeat' split at hres) <;> cases hres
        rw [hmiss, List.nil_append] at hdies ⊢
        by_cases hf : (applyAll ((c.grantStores t size).take k) s.file).fields = s.file.fields
        · have hout : ∀ i, i < t.range.start ∨ t.range.start + c.xb ≤ i →
              (applyAll ((c.grantStores t size).take k) s.file).mem i = s.core.mem i := by
            intro i hi
            refine applyAll_mem i _ _ fun a b hab => ?_
            have := (mem_grantStores (List.mem_of_mem_take hab) hx4).2.2 a b rfl
            omega
          have hst : t.range.start = placeOf s.core.len s.core.nws (size + s.core.xb) := by
            rw [← ht]; exact placeOf_calc _ _
          have hs := h.scratch _ _ _ hout (fun it hit => by
            have hd := live_free h hp h0 hn (by rw [ht]; exact hfree) it hit
            rw [hcx, hst]
            simp only [Disj, Range.stop, Item.range] at hd
            omega)
          rw [hmiss, List.nil_append] at hhdr
          have : applyAll ((c.grantStores t size).take k) s.file = ({ s with core := { s.core with
              mem := (applyAll ((c.grantStores t size).take k) s.file).mem } } : NV).file := by
            revert hf hhdr
            generalize applyAll ((c.grantStores t size).take k) s.file = F
            obtain ⟨m, a, b, c, d, e⟩ := F
            intro h1 h2
            simp only [File.fields, NV.file, fileOf, Prod.mk.injEq] at h1 h2 ⊢
            obtain ⟨h3, h4, h5, h6⟩ := h2
            rw [h1, h3, h4, h5, h6]
          rw [this]
          exact Or.inr (Or.inr ⟨q, opens_of hs ⟨rfl, rfl, rfl, rfl, rfl⟩, .refl K _ q⟩)
        · exact hdies hf

/-! ### Writes and commits -/

theorem writeStores_eq (s : NV) (off : Nat) (bytes : List UInt8) :
    (s.writeStores off bytes = [] ∧ (s.write off bytes).1 = s) ∨
    ∃ r, s.producer = some (some r) ∧ off + bytes.length ≤ r.size - s.core.xb ∧
      s.writeStores off bytes = bytesAt (r.start + s.core.xb + off) bytes := by
  unfold NV.writeStores NV.write
  cases hp : s.producer with
  | none => exact Or.inl ⟨rfl, rfl⟩
  | some p =>
    cases p with
    | none => exact Or.inl ⟨rfl, rfl⟩
    | some r =>
      by_cases hle : off + bytes.length ≤ r.size - s.core.xb
      · exact Or.inr ⟨r, rfl, hle, by simp only; rw [if_pos hle]⟩
      · left; simp only; rw [if_neg hle, if_neg hle]; exact ⟨rfl, rfl⟩

theorem write_eq {s : NV} {off : Nat} {bytes : List UInt8} {r : Range} (hr : s.producer = some (some r))
    (hle : off + bytes.length ≤ r.size - s.core.xb) :
    (s.write off bytes).1.file = applyAll (bytesAt (r.start + s.core.xb + off) bytes) s.file := by
  unfold NV.write
  rw [hr, applyAll_bytes]
  simp only
  rw [if_pos hle]
  rfl

theorem write_prefix (s : NV) (off : Nat) (bytes : List UInt8) (k : Nat) :
    applyAll ((s.writeStores off bytes).take k) s.file = s.file ∨
    applyAll ((s.writeStores off bytes).take k) s.file = (s.write off (bytes.take k)).1.file := by
  rcases writeStores_eq s off bytes with ⟨e, _⟩ | ⟨r, hr, hle, e⟩
  · left; rw [e, List.take_nil]; rfl
  · right
    rw [e, bytesAt_take, write_eq hr (by rw [List.length_take]; omega)]

theorem write_file (s : NV) (off : Nat) (bytes : List UInt8) :
    applyAll (s.writeStores off bytes) s.file = (s.write off bytes).1.file := by
  rcases writeStores_eq s off bytes with ⟨e, e2⟩ | ⟨r, hr, hle, e⟩
  · rw [e, e2]; rfl
  · rw [e, write_eq hr hle]

theorem write_cfg (s : NV) (off : Nat) (bytes : List UInt8) : SameCfg s (s.write off bytes).1 := by
  unfold NV.write
  split
  · split
    · exact ⟨rfl, rfl, rfl, rfl, rfl⟩
    · exact .refl s
  · exact .refl s

theorem qwrite_left (K : Crc) (D : Prop) (q : PQ) (off : Nat) (bytes : List UInt8) : Left K D q (q.write off bytes).1 := by
  unfold PQ.write
  split
  · rename_i p hp
    split
    · refine ⟨rfl, rfl, rfl, ⟨0, by simp, Or.inl rfl⟩, fun hh it hit => ?_⟩
      rcases List.mem_append.1 hit with hit | hit
      · exact hh it (List.mem_append_left _ hit)
      · simp only [PQ.pend, List.mem_singleton] at hit
        subst hit
        exact hh p (List.mem_append_right _ (by simp [PQ.pend, hp]))
    · exact .refl K D q
  · exact .refl K D q

theorem write_found {K : Crc} {D : Prop} {s : NV} {q : PQ} (h : NVSim K s q) (off : Nat) (bytes : List UInt8) (k : Nat)
    (F' : File) : Found K D s q (applyAll ((s.writeStores off bytes).take k) s.file) F' := by
  rcases write_prefix s off bytes k with e | e
  · rw [e]; exact found_before h _
  · rw [e]
    exact Or.inr (Or.inr ⟨_, opens_of (write_sim h off (bytes.take k)).1 (write_cfg s off _), qwrite_left K D q _ _⟩)

theorem commit_file {K : Crc} (s : NV) (hp : s.core.pendingReset = false) :
    applyAll (s.commitStores K) s.file = (s.commit K).1.file := by
  unfold NV.commitStores NV.commit
  cases hpr : s.producer with
  | none => rfl
  | some p =>
  cases p with
  | none => rfl
  | some r =>
    have hm : ∀ (c : Core) (b : Bool), c.pendingReset = false → c.maybeReset b = c := by
      intro c b hc
      unfold Core.maybeReset
      simp [hc]
    have hw : ∀ (c : Core) (b : Bool), (c.writeCrc K b r).pendingReset = c.pendingReset := by
      intro c b; unfold Core.writeCrc; split <;> rfl
    simp only [applyAll_append, applyAll_cons, applyAll_nil]
    rw [hm _ _ (by rw [hw]; exact hp)]
    cases hn : s.core.nrs with
    | none =>
      cases hc : s.crc with
      | true =>
        simp only [if_true, applyAll_bytes]
        simp [NV.syncHdr, NV.file, fileOf, Core.hdrStore, Store.apply, applyAll, Core.writeCrc,
          Core.advanceCommitted, hn, Core.recordCrc]
      | false =>
        simp [NV.syncHdr, NV.file, fileOf, Core.hdrStore, Store.apply, applyAll, Core.writeCrc,
          Core.advanceCommitted, hn]
    | some n =>
      cases hc : s.crc with
      | true =>
        simp only [if_true, applyAll_bytes]
        simp [NV.syncHdr, NV.file, fileOf, Core.hdrStore, Store.apply, applyAll, Core.writeCrc,
          Core.advanceCommitted, hn, Core.recordCrc]
      | false =>
        simp [NV.syncHdr, NV.file, fileOf, Core.hdrStore, Store.apply, applyAll, Core.writeCrc,
          Core.advanceCommitted, hn]

theorem commit_found {K : Crc} {D : Prop} {s : NV} {q : PQ} (h : NVSim K s q) (k : Nat)
    (nc : NoCollide K (s.commitStores K) s.file) :
    Found K D s q (applyAll ((s.commitStores K).take k) s.file) (applyAll (s.commitStores K) s.file) := by
  by_cases hk0 : k = 0
  · subst hk0; exact found_before h _
  by_cases hk : (s.commitStores K).length ≤ k
  · rw [List.take_of_length_le hk]; exact Or.inr (Or.inl rfl)
  obtain ⟨j, rfl⟩ : ∃ j, k = j + 1 := ⟨k - 1, by omega⟩
  left
  have hpr := h.producer
  cases hq : q.producer with
  | none => rw [hq] at hpr; simp only [Option.map_none] at hpr; simp [NV.commitStores, hpr] at hk
  | some p =>
    cases p with
    | none =>
      rw [hq] at hpr
      simp only [Option.map_some, Option.map_none] at hpr
      simp [NV.commitStores, hpr] at hk
    | some p =>
      rw [hq] at hpr
      simp only [Option.map_some] at hpr
      refine dies nc h.hdr ?_ ?_
      · refine applyAll_hdr _ _ fun x hx => ?_
        unfold NV.commitStores at hx hk
        rw [hpr] at hx hk
        simp only [List.length_append, List.length_singleton] at hk
        rw [List.take_append_of_le_length
          (by simp only [List.length_append, List.length_singleton]; omega)] at hx
        have hx := List.mem_of_mem_take hx
        simp only [List.mem_append, List.mem_singleton] at hx
        rcases hx with (hx | hx) | hx
        · subst hx; rfl
        · split at hx
          · simp only [List.mem_singleton] at hx; subst hx; rfl
          · cases hx
        · split at hx
          · obtain ⟨i, b, rfl, _⟩ := mem_bytesAt hx; rfl
          · cases hx
      · intro hf
        have hf : (applyAll _ _).cws = s.core.cws := congrArg (fun x => x.2.1) hf
        unfold NV.commitStores at hf
        rw [hpr] at hf
        simp only [List.append_assoc, List.cons_append, List.nil_append, List.take_succ_cons,
          applyAll_cons] at hf
        rw [applyAll_cws _ _ (fun x hx => ?_)] at hf
        · have hf : some p.start = s.core.cws := hf
          rw [h.core.inv.cws] at hf
          cases hl : q.items.getLast? with
          | none => rw [List.getLast?_map, hl] at hf; cases hf
          | some y =>
            rw [List.getLast?_map, hl] at hf
            simp only [Option.map_some, Option.some.injEq, Item.range] at hf
            have hy : y ∈ q.items := List.mem_of_getLast? hl
            obtain ⟨A, B, hAB⟩ := List.append_of_mem hy
            have hlive : q.live = A ++ y :: (B ++ q.holes ++ [p]) := by
              simp [PQ.live, PQ.pend, hq, hAB]
            have := h.core.apart hlive (b := p) (by simp)
            have := PQ.hb_ge q
            omega
        · have hx := List.mem_of_mem_take hx
          simp only [List.mem_append, List.mem_cons, List.not_mem_nil, or_false] at hx
          rcases hx with hx | hx | hx
          · split at hx
            · simp only [List.mem_singleton] at hx; subst hx; rfl
            · cases hx
          · split at hx
            · obtain ⟨i, b, rfl, _⟩ := mem_bytesAt hx; rfl
            · cases hx
          · subst hx; rfl

/-! ### Any call -/

theorem take_step {K : Crc} {s : NV} {q : PQ} (h : NVSim K s q) (hp : s.producer = some none)
    {size : Nat} (h0 : 0 < size) (hn : size + s.core.xb ≤ s.core.len) (block : Bool) :
    applyAll (s.takeStores K (s.core.calcNextWriteStart (size + s.core.xb)) size block) s.file =
      (s.takeSpace K (s.core.calcNextWriteStart (size + s.core.xb)) size block).1.file := by
  generalize ht : s.core.calcNextWriteStart (size + s.core.xb) = t
  by_cases hok : ∃ a, (s.takeSpace K t size block).2 = .ok a
  · obtain ⟨a, ha⟩ := hok
    exact take_file K s t size block ha
  · cases ho : q.overwrite with
    | true =>
      obtain ⟨n, c', _, e, _⟩ :=
        h.core.makeRoom (h.producerNone hp) h0 hn ho (s.hasRead || s.hasWrite) block
      rw [ht] at e
      refine absurd ⟨⟨t.range.start + c'.xb, size⟩, ?_⟩ hok
      unfold NV.takeSpace
      rw [e]
    | false =>
      have hb := h.core.inv.advanceForWriteBlock (by rw [h.core.ow]; exact ho)
        (n := size + s.core.xb) (by omega) hn (s.hasRead || s.hasWrite) block (2 * s.core.len + 3)
      rw [ht, show 2 * s.core.len + 3 + 1 = s.core.advanceFuel from rfl] at hb
      unfold NV.takeSpace at hok ⊢
      unfold NV.takeStores
      cases e : s.core.advanceForWrite (s.hasRead || s.hasWrite) t block s.core.advanceFuel with
      | mk c r =>
        rw [e] at hok hb
        have hb : c = s.core := hb.1
        subst hb
        cases r with
        | ok u => exact absurd ⟨_, rfl⟩ hok
        | err e =>
          simp only [applyAll_nil]
          rw [withCore_same rfl]
          rfl
        | blocked => rfl

theorem pass_found {K : Crc} {s : NV} {q : PQ} (h : NVSim K s q) (hp : s.producer = some none)
    {size : Nat} (h0 : 0 < size) (hn : size + s.core.xb ≤ s.core.len) (block : Bool) (k : Nat)
    (nc : NoCollide K (s.passStores K (s.core.calcNextWriteStart (size + s.core.xb)) size block) s.file) :
    Found K (q.overwrite = true) s q
      (applyAll ((s.passStores K (s.core.calcNextWriteStart (size + s.core.xb)) size block).take k) s.file)
      (s.passReader K (s.core.calcNextWriteStart (size + s.core.xb)) size block).1.file := by
  unfold NV.passStores at nc ⊢
  unfold NV.passReader
  by_cases hh : s.readHit (s.core.calcNextWriteStart (size + s.core.xb)) = true
  · rw [if_pos hh, if_pos hh, List.take_nil]
    exact found_before h _
  · rw [if_neg hh] at nc
    rw [if_neg hh, if_neg hh, ← take_step h hp h0 hn block]
    exact take_found h hp h0 hn block k nc

/-- The records whose checksum may be damaged by a crash in `op`. -/
def Damages (q : PQ) : NOp → Prop
  | .reserve _ _ | .resume => q.overwrite = true
  | .startRead _ => q.reader = some (.plain false)
  | _ => False

theorem crash_found {K : Crc} {s : NV} {q : PQ} (h : NVSim K s q) (op : NOp) (hop : ∀ a b, op ≠ .alter a b)
    (nc : NoCollide K (s.stores K op) s.file) (k : Nat) :
    Found K (Damages q op) s q (applyAll ((s.stores K op).take k) s.file) (s.step K op).1.file := by
  unfold NV.stores at nc ⊢
  unfold NV.step
  by_cases hpk : (s.parked.isSome && op.usesProducer) = true
  · rw [if_pos hpk, if_pos hpk, List.take_nil]
    exact found_before h _
  rw [if_neg hpk] at nc
  rw [if_neg hpk, if_neg hpk]
  have nostores : s.stores' K op = [] →
      Found K (Damages q op) s q (applyAll ((s.stores' K op).take k) s.file) (s.step' K op).1.file := by
    intro e
    rw [e, List.take_nil]
    exact found_before h _
  cases op with
  | alter a b => exact absurd rfl (hop a b)
  | write off bytes => exact write_found h off bytes k _
  | commit =>
    show Found K _ s q (applyAll ((s.commitStores K).take k) s.file) (s.commit K).1.file
    rw [← commit_file s h.core.inv.pend]
    exact commit_found h k nc
  | reserve size block =>
    show Found K _ s q (applyAll ((s.reserveStores K size block).take k) s.file) (s.reserve K size block).1.file
    have nc : NoCollide K (s.reserveStores K size block) s.file := nc
    unfold NV.reserveStores at nc ⊢
    unfold NV.reserve
    cases hp : s.producer with
    | none => simp only [List.take_nil]; exact found_before h _
    | some x =>
      cases x with
      | some r => simp only [List.take_nil]; exact found_before h _
      | none =>
        simp only
        rw [hp] at nc
        simp only at nc
        by_cases hst : ∃ st e, s.core.startReserve size = (st, .error e)
        · obtain ⟨st, e, hst⟩ := hst
          simp only [hst, List.take_nil]
          exact found_before h _
        · have hok : s.core.startReserve size = (s.core, .ok (size + s.core.xb)) ∧ 0 < size ∧
              size + s.core.xb ≤ s.core.len := by
            unfold Core.startReserve at hst ⊢
            split
            · rename_i hc; rw [if_pos hc] at hst; exact absurd ⟨_, _, rfl⟩ hst
            · rename_i hc
              rw [if_neg hc] at hst
              split
              · rename_i hc; rw [if_pos hc] at hst; exact absurd ⟨_, _, rfl⟩ hst
              · rename_i hc
                rw [if_neg hc] at hst
                split
                · rename_i hc; rw [if_pos hc] at hst; exact absurd ⟨_, _, rfl⟩ hst
                · exact ⟨rfl, by omega, by omega⟩
          have hse : NV.mk s.core s.crc s.blockOnRead s.hdrCrc (some none) s.parked s.consumer = s := by
            rw [← hp]
          rw [hok.1] at nc ⊢
          simp only [hse] at nc ⊢
          exact pass_found h hp hok.2.1 hok.2.2 block k nc
  | resume =>
    show Found K _ s q (applyAll ((s.resumeStores K).take k) s.file) (s.resume K).1.file
    have nc : NoCollide K (s.resumeStores K) s.file := nc
    unfold NV.resumeStores at nc ⊢
    unfold NV.resume
    cases hpk : s.parked with
    | none => simp only [List.take_nil]; exact found_before h _
    | some p =>
      obtain ⟨hp, h0, hn, ht, _⟩ := h.parked p hpk
      rw [hpk] at nc
      simp only at nc ⊢
      by_cases hs : s.core.shutdown = true
      · rw [if_pos hs, if_pos hs, List.take_nil]; exact found_before h _
      · rw [if_neg hs] at nc
        rw [if_neg hs, if_neg hs]
        rw [ht] at nc ⊢
        by_cases ho : p.onRead = true
        · rw [if_pos ho] at nc
          rw [if_pos ho, if_pos ho]
          exact pass_found h hp h0 hn p.block k nc
        · rw [if_neg ho] at nc
          rw [if_neg ho, if_neg ho, ← take_step h hp h0 hn p.block]
          exact take_found h hp h0 hn p.block k nc
  | startRead b =>
    show Found K _ s q (applyAll ((s.startReadStores K b).take k) s.file) (s.startRead K b).1.file
    have nc : NoCollide K (s.startReadStores K b) s.file := nc
    have hro := h.reader
    by_cases hc : s.consumer = some (.plain none)
    · have hq : q.reader = some (.plain false) := by
        unfold readerOk at hro
        rw [hc] at hro
        split at hro
        · cases hro
        · assumption
        · obtain ⟨_, hro⟩ := hro
          rename_i hq
          cases hi : q.items with
          | nil => exact absurd hi hq
          | cons a l => rw [hi] at hro; simp at hro
        · obtain ⟨_, _, _, hro⟩ := hro; simp at hro
      unfold NV.startReadStores at nc ⊢
      unfold NV.startRead
      rw [hc] at nc ⊢
      simp only at nc ⊢
      have hlen : q.items.length < s.core.advanceFuel := by
        have := layout_length h.core.layout
        simp only [List.length_map, PQ.live, List.length_append] at this
        unfold Core.advanceFuel
        omega
      obtain ⟨h1, h2⟩ := loop_found b s q.items s.core.advanceFuel s q k h (.refl s) rfl hq hlen
      have h1 := h1 nc
      have he : ∀ F, F = (s.plainLoop K b s.core.advanceFuel).1.file →
          Found K (Damages q (.startRead b)) s q
            (applyAll ((s.loopStores K b s.core.advanceFuel).take k) s.file) F := by
        rintro F rfl
        rw [← h2]
        rcases h1 with e | e | ⟨q1, e1, e2⟩
        · exact Or.inl e
        · exact Or.inr (Or.inl e)
        · refine Or.inr (Or.inr ⟨q1, e1, e2.crc, e2.ow, e2.broken, ?_, e2.blank⟩)
          obtain ⟨n, g1, g2 | ⟨it, rest, j, _, g2⟩⟩ := e2.items
          · exact ⟨n, g1, Or.inl g2⟩
          · exact ⟨n, g1, Or.inr ⟨it, rest, j, hq, g2⟩⟩
      apply he
      split <;> (rename_i e; rw [e])
    · have : s.startReadStores K b = [] := by
        unfold NV.startReadStores
        split
        · rename_i e; exact absurd e hc
        · rfl
      rw [this, List.take_nil]
      exact found_before h _
  | finishRead =>
    show Found K _ s q (applyAll ((s.finishReadStores K).take k) s.file) (s.finishRead K).1.file
    have nc : NoCollide K (s.finishReadStores K) s.file := nc
    have hro := h.reader
    by_cases hc : ∃ r, s.consumer = some (.plain (some r))
    · obtain ⟨r, hc⟩ := hc
      have hq : ∃ it rest, q.items = it :: rest ∧ r = it.range q.hb := by
        unfold readerOk at hro
        rw [hc] at hro
        split at hro
        · cases hro
        · simp at hro
        · obtain ⟨hne, hro⟩ := hro
          cases hi : q.items with
          | nil => exact absurd hi hne
          | cons a l =>
            rw [hi] at hro
            simp only [List.head?_cons, Option.map_some, Option.some.injEq, Cons.plain.injEq] at hro
            exact ⟨a, l, rfl, hro⟩
        · obtain ⟨_, _, _, hro⟩ := hro; simp at hro
      obtain ⟨it, rest, hi, rfl⟩ := hq
      unfold NV.finishReadStores at nc ⊢
      unfold NV.finishRead
      rw [hc] at nc ⊢
      simp only at nc ⊢
      rw [finishRead_file K s s.hasWrite (it.range q.hb) (some (.plain none)) (h.core.pop hi).inv.pend]
      exact finish_found h hi k nc
    · have : s.finishReadStores K = [] := by
        unfold NV.finishReadStores
        split
        · rename_i r e; exact absurd ⟨r, e⟩ hc
        · rfl
      rw [this, List.take_nil]
      exact found_before h _
  | ack =>
    show Found K _ s q (applyAll ((s.ackStores K).take k) s.file) (s.ack K).1.file
    have nc : NoCollide K (s.ackStores K) s.file := nc
    have hro := h.reader
    by_cases hc : ∃ r rs, s.consumer = some (.cursor (r :: rs))
    · obtain ⟨r, rs, hc⟩ := hc
      have hq : ∃ it rest, q.items = it :: rest ∧ r = it.range q.hb := by
        unfold readerOk at hro
        rw [hc] at hro
        split at hro
        · cases hro
        · simp at hro
        · simp at hro
        · rename_i n _
          obtain ⟨_, _, _, hro⟩ := hro
          simp only [Option.some.injEq, Cons.cursor.injEq] at hro
          cases hi : q.items with
          | nil => rw [hi] at hro; simp at hro
          | cons a l =>
            rw [hi] at hro
            cases n with
            | zero => simp at hro
            | succ n =>
              simp only [List.take_succ_cons, List.map_cons, List.cons.injEq] at hro
              exact ⟨a, l, rfl, hro.1⟩
      obtain ⟨it, rest, hi, rfl⟩ := hq
      unfold NV.ackStores at nc ⊢
      unfold NV.ack
      rw [hc] at nc ⊢
      simp only at nc ⊢
      rw [finishRead_file K s _ (it.range q.hb) (some (.cursor rs)) (h.core.pop hi).inv.pend]
      exact finish_found h hi k nc
    · have : s.ackStores K = [] := by
        unfold NV.ackStores
        split
        · rename_i r rs e; exact absurd ⟨r, rs, e⟩ hc
        · rfl
      rw [this, List.take_nil]
      exact found_before h _
  | _ => exact nostores rfl

theorem pass_step {K : Crc} {s : NV} {q : PQ} (h : NVSim K s q) (hp : s.producer = some none)
    {size : Nat} (h0 : 0 < size) (hn : size + s.core.xb ≤ s.core.len) (block : Bool) :
    applyAll (s.passStores K (s.core.calcNextWriteStart (size + s.core.xb)) size block) s.file =
      (s.passReader K (s.core.calcNextWriteStart (size + s.core.xb)) size block).1.file := by
  unfold NV.passStores NV.passReader
  split
  · split <;> rfl
  · exact take_step h hp h0 hn block

theorem startReserve_ok {c c' : Core} {size n : Nat} (h : c.startReserve size = (c', .ok n)) :
    c' = c ∧ n = size + c.xb ∧ 0 < size ∧ size + c.xb ≤ c.len := by
  unfold Core.startReserve at h
  split at h
  · cases h
  · split at h
    · cases h
    · split at h
      · cases h
      · cases h
        exact ⟨rfl, rfl, by omega, by omega⟩

theorem startReserve_err {c c' : Core} {size : Nat} {e : Code} (h : c.startReserve size = (c', .error e)) (hd : Nat) :
    fileOf c' hd = fileOf c hd := by
  unfold Core.startReserve at h
  split at h
  · cases h; rfl
  · split at h
    · cases h; rfl
    · split at h
      · cases h; rfl
      · cases h

/-- The list of stores is complete: performing all of it gives the file that the call leaves behind. -/
theorem stores_step {K : Crc} {s : NV} {q : PQ} (h : NVSim K s q) (hr : ∀ n, q.reader ≠ some (.cursor n))
    (op : NOp) :
    applyAll (s.stores K op) s.file = (s.step K op).1.file := by
  unfold NV.stores NV.step
  by_cases hpk : (s.parked.isSome && op.usesProducer) = true
  · rw [if_pos hpk, if_pos hpk]; rfl
  rw [if_neg hpk, if_neg hpk]
  cases op with
  | alter a b => rfl
  | write off bytes => exact (write_file s off bytes)
  | commit => exact commit_file s h.core.inv.pend
  | reserve size block =>
    show applyAll (s.reserveStores K size block) s.file = (s.reserve K size block).1.file
    unfold NV.reserveStores NV.reserve
    cases hp : s.producer with
    | none => rfl
    | some x =>
      cases x with
      | some r => rfl
      | none =>
        simp only
        cases hst : s.core.startReserve size with
        | mk c r =>
          cases r with
          | error e =>
            simp only
            exact (startReserve_err hst s.hdrCrc).symm
          | ok n =>
            obtain ⟨rfl, rfl, h0, hn⟩ := startReserve_ok hst
            have hse : NV.mk s.core s.crc s.blockOnRead s.hdrCrc (some none) s.parked s.consumer = s := by
              rw [← hp]
            simp only [hse]
            exact pass_step h hp h0 hn block
  | resume =>
    show applyAll (s.resumeStores K) s.file = (s.resume K).1.file
    unfold NV.resumeStores NV.resume
    cases hpk : s.parked with
    | none => rfl
    | some p =>
      obtain ⟨hp, h0, hn, ht, _⟩ := h.parked p hpk
      simp only
      rw [ht]
      split
      · rfl
      · split
        · exact pass_step h hp h0 hn p.block
        · exact take_step h hp h0 hn p.block
  | startRead b =>
    show applyAll (s.startReadStores K b) s.file = (s.startRead K b).1.file
    have hro := h.reader
    by_cases hc : s.consumer = some (.plain none)
    · have hq : q.reader = some (.plain false) := by
        unfold readerOk at hro
        rw [hc] at hro
        split at hro
        · cases hro
        · assumption
        · obtain ⟨_, hro⟩ := hro
          rename_i hq
          cases hi : q.items with
          | nil => exact absurd hi hq
          | cons a l => rw [hi] at hro; simp at hro
        · obtain ⟨_, _, _, hro⟩ := hro; simp at hro
      have hlen : q.items.length < s.core.advanceFuel := by
        have := layout_length h.core.layout
        simp only [List.length_map, PQ.live, List.length_append] at this
        unfold Core.advanceFuel
        omega
      obtain ⟨_, h2⟩ := loop_found b s q.items s.core.advanceFuel s q 0 h (.refl s) rfl hq hlen
      unfold NV.startReadStores NV.startRead
      rw [hc]
      simp only
      rw [h2]
      split <;> (rename_i e; rw [e])
    · unfold NV.startReadStores NV.startRead
      split
      · rename_i e; exact absurd e hc
      · split
        · rename_i e; exact absurd e hc
        · rfl
        · rfl
  | finishRead =>
    show applyAll (s.finishReadStores K) s.file = (s.finishRead K).1.file
    have hro := h.reader
    unfold NV.finishReadStores NV.finishRead
    by_cases hc : ∃ r, s.consumer = some (.plain (some r))
    · obtain ⟨r, hc⟩ := hc
      have hq : ∃ it rest, q.items = it :: rest ∧ r = it.range q.hb := by
        unfold readerOk at hro
        rw [hc] at hro
        split at hro
        · cases hro
        · simp at hro
        · obtain ⟨hne, hro⟩ := hro
          cases hi : q.items with
          | nil => exact absurd hi hne
          | cons a l =>
            rw [hi] at hro
            simp only [List.head?_cons, Option.map_some, Option.some.injEq, Cons.plain.injEq] at hro
            exact ⟨a, l, rfl, hro⟩
        · obtain ⟨_, _, _, hro⟩ := hro; simp at hro
      obtain ⟨it, rest, hi, rfl⟩ := hq
      rw [hc]
      simp only
      exact (finishRead_file K s s.hasWrite (it.range q.hb) (some (.plain none)) (h.core.pop hi).inv.pend).symm
    · split
      · rename_i r e; exact absurd ⟨r, e⟩ hc
      · split
        · rename_i e; exact absurd ⟨_, e⟩ hc
        · rfl
        · rfl
  | ack =>
    show applyAll (s.ackStores K) s.file = (s.ack K).1.file
    have hro := h.reader
    unfold NV.ackStores NV.ack
    by_cases hc : ∃ r rs, s.consumer = some (.cursor (r :: rs))
    · obtain ⟨r, rs, hc⟩ := hc
      have hq : ∃ it rest, q.items = it :: rest ∧ r = it.range q.hb := by
        unfold readerOk at hro
        rw [hc] at hro
        split at hro
        · cases hro
        · simp at hro
        · simp at hro
        · rename_i n _
          obtain ⟨_, _, _, hro⟩ := hro
          simp only [Option.some.injEq, Cons.cursor.injEq] at hro
          cases hi : q.items with
          | nil => rw [hi] at hro; simp at hro
          | cons a l =>
            rw [hi] at hro
            cases n with
            | zero => simp at hro
            | succ n =>
              simp only [List.take_succ_cons, List.map_cons, List.cons.injEq] at hro
              exact ⟨a, l, rfl, hro.1⟩
      obtain ⟨it, rest, hi, rfl⟩ := hq
      rw [hc]
      simp only
      exact (finishRead_file K s _ (it.range q.hb) (some (.cursor rs)) (h.core.pop hi).inv.pend).symm
    · split
      · rename_i r rs e; exact absurd ⟨r, rs, e⟩ hc
      · split
        · rename_i e; exact absurd ⟨_, _, e⟩ hc
        · rfl
  | cursorRead b =>
    show s.file = (s.cursorRead K b).1.file
    have hro := h.reader
    unfold NV.cursorRead
    cases hc : s.consumer with
    | none => rfl
    | some x =>
      cases x with
      | plain r => rfl
      | cursor rs =>
        unfold readerOk at hro
        rw [hc] at hro
        split at hro
        · cases hro
        · cases hro
        · obtain ⟨_, hro⟩ := hro; cases hro
        · rename_i e; exact absurd e (hr _)
  | restart =>
    show s.file = _
    unfold NV.step'
    simp only
    split
    · rename_i s1 e
      unfold NV.reopen at e
      split at e
      · cases e
      · cases e; rfl
    · rfl
  | waitForDrain =>
    show s.file = fileOf (s.core.waitForDrain s.hasRead).1 s.hdrCrc
    unfold Core.waitForDrain
    split <;> rfl
  | shutdown =>
    show s.file = fileOf s.core.doShutdown s.hdrCrc
    unfold Core.doShutdown
    split <;> rfl
  | registerProducer => unfold NV.step'; simp only; split <;> rfl
  | registerConsumer => unfold NV.step'; simp only; split <;> rfl
  | registerCursor => unfold NV.step'; simp only; split <;> (try rfl); split <;> rfl
  | _ => rfl

/-! ### Damaged checksums are not repaired by accident -/

/-- Zeroing the first bytes of the checksum does not make it match. -/
def Item.firm (K : Crc) (it : Item) : Prop := ∀ j, it.sum K = zp j it.stored → it.sum K = it.stored

theorem zp_zero (j : Nat) : zp j 0 = 0 := by simp [zp]

theorem zp_zp (i j v : Nat) : zp i (zp j v) = zp (max i j) v := by
  unfold zp
  by_cases h : i ≤ j
  · rw [Nat.max_eq_right h]
    obtain ⟨k, rfl⟩ := Nat.exists_eq_add_of_le h
    rw [Nat.pow_add, ← Nat.mul_assoc, Nat.mul_right_comm,
      Nat.mul_div_cancel _ (Nat.pow_pos (by decide))]
  · rw [Nat.max_eq_left (by omega)]
    obtain ⟨k, rfl⟩ := Nat.exists_eq_add_of_le (show j ≤ i by omega)
    rw [Nat.pow_add, ← Nat.div_div_eq_div_mul, Nat.mul_div_cancel _ (Nat.pow_pos (by decide)),
      Nat.div_div_eq_div_mul]

theorem zp_fix {i j v : Nat} (h : zp i v = v) (hj : j ≤ i) : zp j v = v := by
  rw [← h, zp_zp, Nat.max_eq_right hj]

theorem firm_zero {K : Crc} {it : Item} (h : it.stored = 0) : it.firm K := by
  intro j hj
  rw [h, zp_zero] at hj
  rw [hj, h]

theorem firm_sum {K : Crc} {it : Item} (h : it.stored = it.sum K) : it.firm K := fun _ _ => h.symm

theorem firm_zp {K : Crc} {it : Item} (h : it.firm K) (j : Nat) :
    ({ it with stored := zp j it.stored } : Item).firm K := by
  intro i hi
  have hi : it.sum K = zp i (zp j it.stored) := hi
  show it.sum K = zp j it.stored
  rw [zp_zp] at hi
  have h1 := h _ hi
  have : zp j it.stored = it.stored := zp_fix (hi.symm.trans h1) (Nat.le_max_right _ _)
  rw [this]; exact h1

/-- The checksum of every record is right, or zeroed in part. -/
structure Firm (K : Crc) (q : PQ) : Prop where
  items : ∀ it ∈ q.items, it.firm K
  holes : ∀ it ∈ q.holes, it.stored = 0
  pend : ∀ p, q.producer = some (some p) → p.stored = 0

theorem mem_holesAfter {items holes : List Item} {x : Item} (h : x ∈ holesAfter items holes) : x ∈ holes := by
  unfold holesAfter at h
  split at h
  · cases h
  · exact h

theorem Firm.drop {K : Crc} {q : PQ} (h : Firm K q) (n : Nat) : Firm K (q.drop n) :=
  ⟨fun it hit => h.items it (List.mem_of_mem_drop hit), fun it hit => h.holes it (mem_holesAfter hit), h.pend⟩

theorem Firm.abandon {K : Crc} {q : PQ} (h : Firm K q) : Firm K q.abandon := by
  refine ⟨h.items, fun it hit => ?_, fun p hp => by cases hp⟩
  rcases List.mem_append.1 (mem_holesAfter hit) with hit | hit
  · exact h.holes it hit
  · unfold PQ.pend at hit
    split at hit
    · rename_i p hp
      rw [List.mem_singleton] at hit
      subst hit
      exact h.pend _ hp
    · cases hit

theorem Firm.spoil {K : Crc} {q : PQ} (h : Firm K q) : Firm K q.spoil := by
  unfold PQ.spoil
  split
  · refine ⟨fun it hit => ?_, h.holes, h.pend⟩
    cases hi : q.items with
    | nil => simp [hi] at hit
    | cons a l =>
      simp only [hi, List.mem_cons] at hit
      rcases hit with rfl | hit
      · exact firm_zero rfl
      · exact h.items it (by simp [hi, hit])
  · exact h

theorem Firm.reserve {K : Crc} {q q' : PQ} {r : Res Range} (h : Firm K q) (hs : q.reserve q' r) : Firm K q' := by
  rcases hs with ⟨rfl, _⟩ | ⟨_, n, st, sz, d, _, _, rfl, _⟩
  · exact h
  · refine ⟨(h.drop n).items, (h.drop n).holes, fun p hp => ?_⟩
    simp only [Option.some.injEq] at hp
    subst hp; rfl

theorem Firm.step {K : Crc} {q q' : PQ} {op : NOp} {o : Out} (h : Firm K q) (hs : q.steps K op q' o)
    (hb : q'.broken = false) (ha : ∀ a b, op ≠ .alter a b) : Firm K q' := by
  have same : ∀ q1 : PQ, q1.items = q.items → q1.holes = q.holes → q1.producer = q.producer → Firm K q1 :=
    fun q1 e1 e2 e3 => ⟨by rw [e1]; exact h.items, by rw [e2]; exact h.holes, by rw [e3]; exact h.pend⟩
  rcases hs with hs | ⟨_, rfl, _⟩
  · unfold PQ.allows at hs
    cases op with
    | registerProducer =>
      simp only at hs
      split at hs
      · obtain ⟨rfl, _⟩ := hs; exact h
      · obtain ⟨rfl, _⟩ := hs; exact ⟨h.items, h.holes, fun p hp => by cases hp⟩
    | registerConsumer =>
      simp only at hs
      split at hs <;> (obtain ⟨rfl, _⟩ := hs; exact same _ rfl rfl rfl)
    | registerCursor =>
      simp only at hs
      split at hs
      · obtain ⟨rfl, _⟩ := hs; exact h
      · split at hs
        · obtain ⟨rfl, _⟩ := hs; exact same _ rfl rfl rfl
        · rw [hb] at hs; cases hs.1
    | alter a b => exact absurd rfl (ha a b)
    | dropProducer => obtain ⟨rfl, _⟩ := hs; exact h.abandon
    | reserve _ _ => obtain ⟨r, _, hs⟩ := hs; exact h.reserve hs
    | resume => obtain ⟨r, _, hs⟩ := hs; exact h.reserve hs
    | write off bs =>
      obtain ⟨rfl, _⟩ := hs
      unfold PQ.write
      split
      · rename_i p hp
        split
        · refine ⟨h.items, h.holes, fun p' hp' => ?_⟩
          simp only [Option.some.injEq] at hp'
          subst hp'
          exact h.pend p hp
        · exact h
      · exact h
    | commit =>
      obtain ⟨rfl, _⟩ := hs
      unfold PQ.commit
      split
      · rename_i p hp
        refine ⟨fun it hit => ?_, (fun it hit => by cases hit), (fun p hp => by cases hp)⟩
        simp only [List.mem_append, List.mem_singleton] at hit
        rcases hit with (hit | hit) | hit
        · exact h.items it hit
        · exact firm_zero (h.holes it hit)
        · subst hit
          split
          · exact firm_sum rfl
          · exact firm_zero (h.pend p hp)
      · exact h
      · exact h
    | dropConsumer => obtain ⟨rfl, _⟩ := hs; exact same _ rfl rfl rfl
    | startRead b =>
      obtain ⟨r, _, hs⟩ := hs
      unfold PQ.startRead at hs
      split at hs
      · split at hs
        · obtain ⟨rfl, _⟩ := hs
          have := (h.drop (q.bad K)).spoil
          exact ⟨this.items, this.holes, this.pend⟩
        · obtain ⟨rfl, _⟩ := hs; exact h.drop _
      · obtain ⟨rfl, _⟩ := hs; exact h
      · obtain ⟨rfl, _⟩ := hs; exact h
    | finishRead =>
      obtain ⟨r, _, hs⟩ := hs
      unfold PQ.finishRead at hs
      split at hs
      · obtain ⟨rfl, _⟩ := hs; exact ⟨(h.drop 1).items, (h.drop 1).holes, h.pend⟩
      · obtain ⟨rfl, _⟩ := hs; exact h
      · obtain ⟨rfl, _⟩ := hs; exact h
    | cursorRead b =>
      obtain ⟨r, _, hs⟩ := hs
      unfold PQ.cursorRead at hs
      split at hs
      · split at hs
        · split at hs
          · obtain ⟨rfl, _⟩ := hs; exact same _ rfl rfl rfl
          · rw [hb] at hs; cases hs
        · obtain ⟨rfl, _⟩ := hs; exact h
      · obtain ⟨rfl, _⟩ := hs; exact h
    | ack =>
      obtain ⟨r, _, hs⟩ := hs
      unfold PQ.ack at hs
      split at hs
      · obtain ⟨rfl, _⟩ := hs; exact ⟨(h.drop 1).items, (h.drop 1).holes, h.pend⟩
      · obtain ⟨rfl, _⟩ := hs; exact h
    | restart => obtain ⟨rfl, _⟩ := hs; exact ⟨h.abandon.items, h.abandon.holes, h.abandon.pend⟩
    | _ => obtain ⟨rfl, _⟩ := hs; exact h
  · exact h

theorem Firm.left {K : Crc} {D : Prop} {q q1 : PQ} (h : Firm K q) (hl : Left K D q q1) : Firm K q1 := by
  have hb := hl.blank fun it hit => by
    rcases List.mem_append.1 hit with hit | hit
    · exact h.holes it hit
    · unfold PQ.pend at hit
      split at hit
      · rename_i p hp
        rw [List.mem_singleton] at hit
        subst hit
        exact h.pend _ hp
      · cases hit
  refine ⟨?_, fun it hit => hb it (List.mem_append_left _ hit), fun p hp => hb p (List.mem_append_right _
    (by simp [PQ.pend, hp]))⟩
  obtain ⟨n, _, e | ⟨it, rest, j, _, _, e1, e2⟩⟩ := hl.items
  · rw [e]; exact (h.drop n).items
  · intro x hx
    have hd := (h.drop n).items
    rw [show (q.drop n).items = it :: rest from e1] at hd
    rw [e2] at hx
    rcases List.mem_cons.1 hx with rfl | hx
    · exact firm_zp (hd it (by simp)) j
    · exact hd x (List.mem_cons_of_mem _ hx)

end Verif.Buffer
