import Verif.Buffer.NVCorrupt
import Verif.Buffer.NVProps

/-
C08: corrupt records are never delivered.
-/
namespace Verif.Buffer

/-! ### What an alteration does to a record, independently of the buffer -/

/-- The bytes at `base, base + 1, …` after the stores `L`. -/
def alterBytes (L : List (Nat × UInt8)) (base : Nat) (bs : List UInt8) : List UInt8 :=
  L.foldl (fun bs p => if base ≤ p.1 ∧ p.1 < base + bs.length then bs.set (p.1 - base) p.2 else bs) bs

/-- What is left of a record with contents `x.2` at `x.1` after the stores `L`: its size and its
checksum are in the eight bytes before it. -/
def survive (K : Crc) (L : List (Nat × UInt8)) (x : Range × List UInt8) :
    Option (Range × List UInt8) :=
  if K.sum (le32 x.1.size ++ alterBytes L x.1.start x.2) =
      ofLe32 (alterBytes L (x.1.start - 8) (le32 (K.sum (le32 x.1.size ++ x.2)))) then
    some (x.1, alterBytes L x.1.start x.2)
  else none

/-- The address is in the contents or in the checksum of the record. -/
def hits (a : Nat) (x : Range × List UInt8) : Prop :=
  (x.1.start ≤ a ∧ a < x.1.start + x.1.size) ∨ (x.1.start ≤ a + 8 ∧ a + 4 < x.1.start)

theorem alterBytes_length (L : List (Nat × UInt8)) (base : Nat) :
    ∀ bs, (alterBytes L base bs).length = bs.length := by
  induction L with
  | nil => intro bs; rfl
  | cons p L ih =>
    intro bs
    show (alterBytes L base _).length = _
    rw [ih]
    simp only
    split
    · rw [List.length_set]
    · rfl

theorem alterBytes_out {a : Nat} {b : UInt8} {base : Nat} {bs : List UInt8}
    (h : ¬ (base ≤ a ∧ a < base + bs.length)) : alterBytes [(a, b)] base bs = bs := by
  simp only [alterBytes, List.foldl_cons, List.foldl_nil]
  rw [if_neg h]

theorem alterBytes_in {a : Nat} {b : UInt8} {base : Nat} {bs : List UInt8}
    (h : base ≤ a ∧ a < base + bs.length) : alterBytes [(a, b)] base bs = bs.set (a - base) b := by
  simp only [alterBytes, List.foldl_cons, List.foldl_nil]
  rw [if_pos h]

/-- The item after the stores `L`. -/
def Item.pokes (L : List (Nat × UInt8)) (it : Item) : Item :=
  L.foldl (fun it p => it.poke 8 true p.1 p.2) it

theorem pokes_eq (L : List (Nat × UInt8)) : ∀ (it : Item), it.data.length = it.size →
    it.stored < 2 ^ 32 → it.pokes L = ⟨it.start, it.size, alterBytes L (it.start + 8) it.data,
      ofLe32 (alterBytes L it.start (le32 it.stored))⟩ := by
  induction L with
  | nil =>
    intro it _ h
    simp only [Item.pokes, alterBytes, List.foldl_nil]
    rw [ofLe32_le32 _ h]
  | cons p L ih =>
    intro it hd hs
    have h4 : (le32 it.stored).length = 4 := rfl
    show (it.poke 8 true p.1 p.2).pokes L = _
    have hst := poke_start 8 true p.1 p.2 it
    have e1 : (it.poke 8 true p.1 p.2).data =
        (if it.start + 8 ≤ p.1 ∧ p.1 < it.start + 8 + it.data.length then
          it.data.set (p.1 - (it.start + 8)) p.2 else it.data) := by
      unfold Item.poke
      rw [hd]
      split
      · rfl
      · split <;> rfl
    have e2 : le32 (it.poke 8 true p.1 p.2).stored =
        (if it.start ≤ p.1 ∧ p.1 < it.start + (le32 it.stored).length then
          (le32 it.stored).set (p.1 - it.start) p.2 else le32 it.stored) := by
      rw [h4]
      unfold Item.poke
      split
      · rw [if_neg (by omega)]
      · split
        · rename_i h
          rw [if_pos h.2]
          simp only
          rw [le32_ofLe32 _ (by rw [List.length_set]; rfl)]
        · rename_i h
          rw [if_neg (fun e => h ⟨rfl, e⟩)]
    have e3 : (it.poke 8 true p.1 p.2).stored < 2 ^ 32 := by
      unfold Item.poke
      split
      · exact hs
      · split
        · exact ofLe32_lt _
        · exact hs
    rw [ih _ (by rw [e1, hst.2]; split <;> simp [hd]) e3, hst.1, hst.2, e1, e2]
    rfl

/-- The address is in the contents or in the checksum of the item. -/
def Item.hit (a : Nat) (it : Item) : Prop :=
  (it.start + 8 ≤ a ∧ a < it.start + 8 + it.size) ∨ (it.start ≤ a ∧ a < it.start + 4)

theorem pairwise_forall {α : Type} {R : α → α → Prop} (hs : ∀ a b, R a b → R b a) (hr : ∀ a, R a a)
    {l : List α} (h : l.Pairwise R) {x y : α} (hx : x ∈ l) (hy : y ∈ l) : R x y := by
  induction h with
  | nil => cases hx
  | cons ha _ ih =>
    cases hx with
    | head =>
      cases hy with
      | head => exact hr _
      | tail _ hy => exact ha _ hy
    | tail _ hx =>
      cases hy with
      | head => exact hs _ _ (ha _ hx)
      | tail _ hy => exact ih hx hy

theorem live_disj {c : Core} {q : PQ} (h : QInv c q) {x y : Item} (hx : x ∈ q.live) (hy : y ∈ q.live) :
    x = y ∨ x.start + x.size + q.hb ≤ y.start ∨ y.start + y.size + q.hb ≤ x.start := by
  have hp : q.live.Pairwise (fun x y => x = y ∨ x.start + x.size + q.hb ≤ y.start ∨
      y.start + y.size + q.hb ≤ x.start) := by
    have := h.layout.pairwise
    rw [List.pairwise_map] at this
    refine this.imp ?_
    intro a b hab
    simp only [Disj, Range.stop, Item.range] at hab
    omega
  refine pairwise_forall (fun a b hab => ?_) (fun x => by exact Or.inl rfl) hp hx hy
  rcases hab with hab | hab | hab
  · exact Or.inl hab.symm
  · exact Or.inr (Or.inr hab)
  · exact Or.inr (Or.inl hab)

theorem hit_other {c : Core} {q : PQ} (h : QInv c q) (hc : q.crc = true) {a : Nat} {x y : Item}
    (hx : x ∈ q.live) (hy : y ∈ q.live) (ha : x.hit a) (hb : y.start ≤ a ∧ a < y.start + 8 + y.size) :
    x = y := by
  have := q.hb_crc hc
  unfold Item.hit at ha
  rcases live_disj h hx hy with e | e
  · exact e
  · omega

theorem alters_sim {K : Crc} (L : List (Nat × UInt8)) : ∀ {s : NV} {q : PQ}, NVSim K s q →
    q.crc = true → q.broken = false → (∀ p ∈ L, ∃ it ∈ q.items, it.hit p.1) →
    ∃ q', NVSim K (s.run K (L.map fun p => .alter p.1 p.2)).1 q' ∧ q'.crc = true ∧ q'.broken = false ∧
      q'.items = q.items.map (Item.pokes L) ∧
      (s.run K (L.map fun p => .alter p.1 p.2)).1.core.stats = s.core.stats := by
  induction L with
  | nil => intro s q h hc hb _; exact ⟨q, h, hc, hb, (List.map_id'' (fun _ => rfl) _).symm, rfl⟩
  | cons p L ih =>
    intro s q h hc hb hL
    obtain ⟨it, hit, hhit⟩ := hL p (by simp)
    have hlive : it ∈ q.live := by simp [PQ.live, hit]
    have hnb : (q.alter p.1 p.2).broken = false := by
      have : q.live.any (Item.sizeAt q.hb p.1) = false := by
        rw [List.any_eq_false]
        intro y hy hs
        rw [q.hb_crc hc] at hs
        simp only [Item.sizeAt, Bool.and_eq_true, decide_eq_true_eq] at hs
        have := hit_other h.core hc hlive hy hhit (by omega)
        subst this
        unfold Item.hit at hhit
        omega
      simp [PQ.alter, hb, this]
    have h1 := alter_sim h p.1 p.2 hnb
    have hitems : (q.alter p.1 p.2).items = q.items.map (Item.poke 8 true p.1 p.2) := by
      simp only [PQ.alter]
      rw [q.hb_crc hc, hc]
    obtain ⟨q', g1, g2, g3, g4, g5⟩ := ih h1 hc hnb (by
      intro p' hp'
      obtain ⟨y, hy, hh⟩ := hL p' (by simp [hp'])
      refine ⟨y.poke 8 true p.1 p.2, by rw [hitems]; exact List.mem_map_of_mem hy, ?_⟩
      unfold Item.hit at hh ⊢
      rw [(poke_start ..).1, (poke_start ..).2]
      exact hh)
    have er : (s.run K ((p :: L).map fun p => .alter p.1 p.2)).1 =
        (({ s with core := { s.core with mem := writeMem s.core.mem p.1 [p.2] } } : NV).run K
          (L.map fun p => .alter p.1 p.2)).1 := by
      have : s.step K (.alter p.1 p.2) =
          ({ s with core := { s.core with mem := writeMem s.core.mem p.1 [p.2] } }, .unit (.ok ())) := by
        simp [NV.step, NOp.usesProducer, NV.step']
      simp only [List.map_cons, NV.run, this]
    refine ⟨q', by rw [er]; exact g1, g2, g3, ?_, by rw [er, g5]⟩
    rw [g4, hitems, List.map_map]
    rfl

theorem pokes_id {L : List (Nat × UInt8)} : ∀ {it : Item}, (∀ p ∈ L, ¬ it.hit p.1) → it.pokes L = it := by
  induction L with
  | nil => intro it _; rfl
  | cons p L ih =>
    intro it h
    have hp := h p (by simp)
    unfold Item.hit at hp
    have : it.poke 8 true p.1 p.2 = it := by
      unfold Item.poke
      rw [if_neg (fun e => hp (Or.inl e)), if_neg (fun e => hp (Or.inr e.2))]
    show (it.poke 8 true p.1 p.2).pokes L = it
    rw [this]
    exact ih (fun p' hp' => h p' (by simp [hp']))

/-- The fate of one item. -/
theorem fate {K : Crc} {s : NV} {q : PQ} (h : NVSim K s q) (hc : q.crc = true)
    {L : List (Nat × UInt8)} (hL : ∀ p ∈ L, ∃ it ∈ q.items, q.passes K it = true ∧ it.hit p.1)
    {it : Item} (hit : it ∈ q.items) :
    (q.passes K it = true → survive K L (q.slice it) =
      if (it.pokes L).sum K = (it.pokes L).stored then some (q.slice (it.pokes L)) else none) ∧
    (q.passes K it = false → it.pokes L = it) := by
  have hlive : it ∈ q.live := by simp [PQ.live, hit]
  have hm := h.core.mem it hlive
  have hd : it.data.length = it.size := by rw [← hm.1, readMem_length]
  have hs : it.stored < 2 ^ 32 := by rw [← hm.2 hc]; exact ofLe32_lt _
  refine ⟨fun hp => ?_, fun hp => ?_⟩
  · have hsum : it.sum K = it.stored := by simpa [PQ.passes, hc] using hp
    rw [pokes_eq L it hd hs]
    unfold survive PQ.slice
    simp only [q.hb_crc hc, Nat.add_sub_cancel]
    rw [show K.sum (le32 it.size ++ it.data) = it.stored from hsum]
    rfl
  · apply pokes_id
    intro p hp' hh
    obtain ⟨y, hy, hpy, hhy⟩ := hL p hp'
    have : y = it := by
      refine hit_other h.core hc (by simp [PQ.live, hy]) hlive hhy ?_
      unfold Item.hit at hh
      omega
    subst this
    rw [hp] at hpy
    cases hpy

theorem unread_after {K : Crc} {s : NV} {q : PQ} (h : NVSim K s q) (hc : q.crc = true)
    (hb : q.broken = false) {L : List (Nat × UInt8)} (hL : ∀ p ∈ L, ∃ x ∈ s.unread K, hits p.1 x) :
    (s.run K (L.map fun p => .alter p.1 p.2)).1.unread K = (s.unread K).filterMap (survive K L) := by
  have hL' : ∀ p ∈ L, ∃ it ∈ q.items, q.passes K it = true ∧ it.hit p.1 := by
    intro p hp
    obtain ⟨x, hx, hh⟩ := hL p hp
    rw [unread_nv h] at hx
    obtain ⟨it, hit, rfl⟩ := List.mem_map.1 hx
    rw [List.mem_filter] at hit
    refine ⟨it, hit.1, hit.2, ?_⟩
    unfold hits PQ.slice at hh
    rw [q.hb_crc hc] at hh
    unfold Item.hit
    simp only at hh
    omega
  obtain ⟨q', g1, g2, g3, g4, _⟩ := alters_sim L h hc hb (fun p hp => by
    obtain ⟨it, h1, _, h3⟩ := hL' p hp; exact ⟨it, h1, h3⟩)
  rw [unread_nv g1, unread_nv h, g4, List.filterMap_map, List.filter_map, List.map_map,
    ← List.filterMap_eq_filter, ← List.filterMap_eq_filter, List.filterMap_filterMap,
    List.map_filterMap]
  apply List.filterMap_congr
  intro it hit
  have hf := fate h hc hL' hit
  have hp' : ∀ x, q'.passes K x = decide (x.sum K = x.stored) := by intro x; simp [PQ.passes, g2]
  have hsl : ∀ x, q'.slice x = q.slice x := by
    intro x; simp [PQ.slice, q.hb_crc hc, q'.hb_crc g2]
  cases hp : q.passes K it with
  | true =>
    simp only [Option.guard, Function.comp_apply, hp', hp]
    simp only [if_true, Option.bind_some, Function.comp_apply]
    rw [hf.1 hp]
    by_cases e : (it.pokes L).sum K = (it.pokes L).stored
    · simp [e, hsl]
    · simp [e]
  | false =>
    simp only [Option.guard, Function.comp_apply, hp', hp]
    rw [hf.2 hp]
    have : ¬ it.sum K = it.stored := by simpa [PQ.passes, hc] using hp
    simp [this]

/-! ### Histories without cursor and without alterations do not break -/

def NOp.tame : NOp → Bool
  | .registerCursor | .alter _ _ => false
  | _ => true

theorem tame_step {K : Crc} {q q' : PQ} {op : NOp} {o : Out} (h : q.steps K op q' o)
    (ht : op.tame = true) (hr : ∀ n, q.reader ≠ some (.cursor n)) (hb : q.broken = false) :
    (∀ n, q'.reader ≠ some (.cursor n)) ∧ q'.broken = false ∧ q'.crc = q.crc := by
  rcases h with h | ⟨_, rfl, _⟩
  · unfold PQ.allows at h
    cases op with
    | registerProducer =>
      simp only at h
      split at h <;> (obtain ⟨rfl, _⟩ := h; exact ⟨hr, hb, rfl⟩)
    | registerConsumer =>
      simp only at h
      split at h
      · obtain ⟨rfl, _⟩ := h; exact ⟨hr, hb, rfl⟩
      · obtain ⟨rfl, _⟩ := h; exact ⟨(fun n e => by cases e), hb, rfl⟩
    | registerCursor => cases ht
    | alter _ _ => cases ht
    | dropProducer => obtain ⟨rfl, _⟩ := h; exact ⟨hr, hb, rfl⟩
    | reserve _ _ =>
      obtain ⟨r, _, h⟩ := h
      rcases h with ⟨rfl, _⟩ | ⟨_, n, st, sz, d, _, _, rfl, _⟩
      · exact ⟨hr, hb, rfl⟩
      · exact ⟨hr, hb, rfl⟩
    | resume =>
      obtain ⟨r, _, h⟩ := h
      rcases h with ⟨rfl, _⟩ | ⟨_, n, st, sz, d, _, _, rfl, _⟩
      · exact ⟨hr, hb, rfl⟩
      · exact ⟨hr, hb, rfl⟩
    | write off bs =>
      obtain ⟨rfl, _⟩ := h
      unfold PQ.write
      (repeat' split) <;> exact ⟨hr, hb, rfl⟩
    | commit =>
      obtain ⟨rfl, _⟩ := h
      unfold PQ.commit
      split
      · refine ⟨hr, ?_, rfl⟩
        simp only [hb, Bool.false_or]
      · exact ⟨hr, hb, rfl⟩
      · exact ⟨hr, hb, rfl⟩
    | dropConsumer => obtain ⟨rfl, _⟩ := h; exact ⟨(fun n e => by cases e), hb, rfl⟩
    | startRead b =>
      obtain ⟨r, _, h⟩ := h
      unfold PQ.startRead at h
      split at h
      · split at h
        · obtain ⟨rfl, _⟩ := h
          refine ⟨(fun n e => by cases e), ?_, ?_⟩
          · simp only [PQ.spoil]; split <;> exact hb
          · simp only [PQ.spoil]; split <;> rfl
        · obtain ⟨rfl, _⟩ := h; exact ⟨hr, hb, rfl⟩
      · obtain ⟨rfl, _⟩ := h; exact ⟨hr, hb, rfl⟩
      · obtain ⟨rfl, _⟩ := h; exact ⟨hr, hb, rfl⟩
    | finishRead =>
      obtain ⟨r, _, h⟩ := h
      unfold PQ.finishRead at h
      split at h
      · obtain ⟨rfl, _⟩ := h; exact ⟨(fun n e => by cases e), hb, rfl⟩
      · obtain ⟨rfl, _⟩ := h; exact ⟨hr, hb, rfl⟩
      · obtain ⟨rfl, _⟩ := h; exact ⟨hr, hb, rfl⟩
    | cursorRead b =>
      obtain ⟨r, _, h⟩ := h
      unfold PQ.cursorRead at h
      split at h
      · rename_i n e; exact absurd e (hr n)
      · obtain ⟨rfl, _⟩ := h; exact ⟨hr, hb, rfl⟩
    | ack =>
      obtain ⟨r, _, h⟩ := h
      unfold PQ.ack at h
      split at h
      · rename_i n e; exact absurd e (hr (n + 1))
      · obtain ⟨rfl, _⟩ := h; exact ⟨hr, hb, rfl⟩
    | restart => obtain ⟨rfl, _⟩ := h; exact ⟨(fun n e => by cases e), hb, rfl⟩
    | _ => obtain ⟨rfl, _⟩ := h; exact ⟨hr, hb, rfl⟩
  · exact ⟨hr, hb, rfl⟩

theorem tame_run {K : Crc} (ops : List NOp) : ∀ {s : NV} {q : PQ}, NVSim K s q →
    (∀ op ∈ ops, op.tame = true) → (∀ n, q.reader ≠ some (.cursor n)) → q.broken = false →
    ∃ q', NVSim K (s.run K ops).1 q' ∧ q'.broken = false ∧ q'.crc = q.crc ∧
      ∀ n, q'.reader ≠ some (.cursor n) := by
  induction ops with
  | nil => intro s q h _ hr hb; exact ⟨q, h, hb, rfl, hr⟩
  | cons op ops ih =>
    intro s q h ht hr hb
    obtain ⟨q1, h1, h2⟩ := h.step op
    obtain ⟨a1, a2, a3⟩ := tame_step h1 (ht op (by simp)) hr hb
    obtain ⟨q', g1, g2, g3, g4⟩ := ih (h2 a2) (fun o ho => ht o (by simp [ho])) a1 a2
    exact ⟨q', g1, g2, g3.trans a3, g4⟩

theorem nv_run_append (K : Crc) (a b : List NOp) : ∀ s : NV,
    (s.run K (a ++ b)).1 = ((s.run K a).1.run K b).1 := by
  induction a with
  | nil => intro s; rfl
  | cons x a ih => intro s; exact ih _

/-! ### C08 -/

/-- C08, plain consumer, after any history whatsoever (alterations of size fields included).  `m` is
the memory as it was when the record was looked at: the memory before the call, with the checksums of
the skipped records (at `zs`) zeroed.  The size and the checksum stored with the delivered record match
its contents, the checksum is then zeroed, and every skipped record was counted. -/
theorem C08_checked (K : Crc) (len : Nat) (overwrite blockOnRead block : Bool) (ops : List NOp)
    (s' : NV) (r : Range) (bs : List UInt8) :
    let s := nvAfter K len true overwrite blockOnRead ops
    s.startRead K block = (s', .ok (r, bs)) →
    ∃ zs : List Nat, let m := zs.foldl zero4 s.core.mem
      8 ≤ r.start ∧ r.size ≠ 0 ∧ bs.length = r.size ∧ bs = readMem m r.start r.size ∧
      ofLe32 (readMem m (r.start - 4) 4) = r.size ∧
      K.sum (readMem m (r.start - 4) 4 ++ bs) = ofLe32 (readMem m (r.start - 8) 4) ∧
      s'.core.mem = zero4 m (r.start - 8) ∧
      s'.core.stats.recordsCorrupted = s.core.stats.recordsCorrupted + zs.length := by
  intro s h
  obtain ⟨hc, hx⟩ := nvAfter_cfg K len overwrite blockOnRead ops
  unfold NV.startRead at h
  split at h
  · split at h
    · rename_i s1 r1 he
      obtain ⟨zs, g1, ⟨sz, g2, g3, g4⟩, g5, g6, g7⟩ := plainLoop_checked _ hc hx he
      injection h with h1 h2
      subst h1
      injection h2 with h2
      injection h2 with h2 h3
      rw [g7] at h2 h3
      subst h2
      have e4 : r1.start + 8 - 4 = r1.start + 4 := by omega
      have e5 : r1.start + 8 - 8 = r1.start := by omega
      have e6 : r1.size - 8 = sz := by omega
      have e7 : r1.size - 4 = 4 + sz := by omega
      rw [e6] at h3
      have hbs : bs = readMem (zs.foldl zero4 s.core.mem) (r1.start + 8) sz := by
        rw [← h3, g1]
        apply readMem_congr
        intro i hi
        exact writeMem_out _ _ _ _ (by simp; omega)
      refine ⟨zs, ?_⟩
      simp only [e4, e5, e6]
      refine ⟨by omega, g2, by rw [hbs, readMem_length], hbs, g3, ?_, g1, g6⟩
      rw [← g5, e7, readMem_append, hbs]
    · cases h
    · cases h
  · injection h with _ h2; cases h2
  · injection h with _ h2; cases h2

/-- C08, cursor consumer, after any history whatsoever. -/
theorem C08_checked_cursor (K : Crc) (len : Nat) (overwrite blockOnRead block : Bool) (ops : List NOp)
    (s' : NV) (r : Range) (bs : List UInt8) :
    let s := nvAfter K len true overwrite blockOnRead ops
    s.cursorRead K block = (s', .ok (r, bs)) →
    8 ≤ r.start ∧ r.size ≠ 0 ∧ bs.length = r.size ∧ bs = readMem s.core.mem r.start r.size ∧
    ofLe32 (readMem s.core.mem (r.start - 4) 4) = r.size ∧
    K.sum (readMem s.core.mem (r.start - 4) 4 ++ bs) = ofLe32 (readMem s.core.mem (r.start - 8) 4) ∧
    s'.core.mem = s.core.mem := by
  intro s h
  obtain ⟨hc, hx⟩ := nvAfter_cfg K len overwrite blockOnRead ops
  unfold NV.cursorRead at h
  split at h
  · split at h
    · rename_i s1 r1 he
      obtain ⟨g1, g7, ⟨sz, g2, g3, g4⟩, g5⟩ := cursorLoop_checked _ hc hx he
      injection h with h1 h2
      subst h1
      injection h2 with h2
      injection h2 with h2 h3
      rw [g7] at h2 h3
      subst h2
      have e4 : r1.start + 8 - 4 = r1.start + 4 := by omega
      have e5 : r1.start + 8 - 8 = r1.start := by omega
      have e6 : r1.size - 8 = sz := by omega
      have e7 : r1.size - 4 = 4 + sz := by omega
      rw [e6, g1] at h3
      simp only [e4, e5, e6]
      refine ⟨by omega, g2, by rw [← h3, readMem_length], h3.symm, g3, ?_, g1⟩
      have g5' : K.sum (readMem s.core.mem (r1.start + 4) (r1.size - 4)) = _ := g5
      rw [← g5', e7, readMem_append, ← h3]
    · cases h
    · cases h
  · injection h with _ h2; cases h2

/-- C08, alterations, plain consumers (missing, because false: cursor consumers, `C08_cursor_violated`):
after any history without cursor consumer and earlier alterations, alter any
bytes `L` of the contents and checksums of the unread records.  A plain consumer then reads exactly
those whose checksum still matches, in order, with their altered contents. -/
theorem C08_skips_partial (K : Crc) (len : Nat) (hlen : len < 2 ^ 32) (overwrite blockOnRead : Bool)
    (ops : List NOp) (ht : ∀ op ∈ ops, op.tame = true) (L : List (Nat × UInt8)) :
    let s := nvAfter K len true overwrite blockOnRead ops
    (∀ p ∈ L, ∃ x ∈ s.unread K, hits p.1 x) →
    (nvAfter K len true overwrite blockOnRead (ops ++ L.map fun p => .alter p.1 p.2)).unread K =
      (s.unread K).filterMap (survive K L) := by
  intro s hL
  obtain ⟨q, h, hb, hc, _⟩ := tame_run ops (NVSim.new K len true overwrite blockOnRead hlen) ht
    (fun n e => by cases e) rfl
  have := unread_after h hc hb hL
  unfold nvAfter
  rw [nv_run_append]
  exact this

/-- C08, alterations, after a history with cursor consumers (see `NTrace.calm`). -/
theorem C08_skips_calm_partial (K : Crc) (len : Nat) (hlen : len < 2 ^ 32) (blockOnRead : Bool)
    (ops : List NOp) (hz : NoZero K (NV.new K len true false blockOnRead) ops)
    (hcalm : (nvHistory K len true false blockOnRead ops).calm = true) (L : List (Nat × UInt8)) :
    let s := nvAfter K len true false blockOnRead ops
    (∀ p ∈ L, ∃ x ∈ s.unread K, hits p.1 x) →
    (nvAfter K len true false blockOnRead (ops ++ L.map fun p => .alter p.1 p.2)).unread K =
      (s.unread K).filterMap (survive K L) := by
  intro s hL
  obtain ⟨q, h, ho, hc⟩ := nv_reach K len hlen true blockOnRead ops hz hcalm
  have := unread_after h hc ho.nb hL
  unfold nvAfter
  rw [nv_run_append]
  exact this

theorem bad_count {K : Crc} {s : NV} {q q' : PQ} (h : NVSim K s q) (hc : q.crc = true)
    {L : List (Nat × UInt8)} (hL : ∀ p ∈ L, ∃ it ∈ q.items, q.passes K it = true ∧ it.hit p.1)
    (hc' : q'.crc = true) : ∀ l : List Item, (∀ it ∈ l, it ∈ q.items ∧ q.passes K it = true) →
    ((l.map (Item.pokes L)).takeWhile fun it => !q'.passes K it).length =
      ((l.map q.slice).takeWhile fun x => (survive K L x).isNone).length
  | [], _ => rfl
  | it :: l, hl => by
    have ih := bad_count h hc hL hc' l (fun x hx => hl x (by simp [hx]))
    obtain ⟨h1, h2⟩ := hl it (by simp)
    have hf := (fate h hc hL h1).1 h2
    have hp' : q'.passes K (it.pokes L) = decide ((it.pokes L).sum K = (it.pokes L).stored) := by
      simp [PQ.passes, hc']
    simp only [List.map_cons, List.takeWhile_cons, hp', hf]
    by_cases e : (it.pokes L).sum K = (it.pokes L).stored
    · simp [e]
    · simp [e, ih]

/-- C08, counting: alter any bytes of the contents and checksums of the unread records of a buffer
without abandoned reservations.  The first read of a new plain consumer counts every corrupt record in
front of the one it returns (all of them if none is left). -/
theorem C08_counted (K : Crc) (len : Nat) (hlen : len < 2 ^ 32) (blockOnRead : Bool)
    (ops : List NOp) (hz : NoZero K (NV.new K len true false blockOnRead) ops)
    (L : List (Nat × UInt8)) :
    let s := nvAfter K len true false blockOnRead ops
    let t := nvHistory K len true false blockOnRead ops
    t.calm = true → t.holed = false → t.reading = none →
    (∀ p ∈ L, ∃ x ∈ s.unread K, hits p.1 x) →
    (s.run K ((L.map fun p => .alter p.1 p.2) ++
        [.dropConsumer, .registerConsumer, .startRead false])).1.core.stats.recordsCorrupted =
      s.core.stats.recordsCorrupted +
        ((s.unread K).takeWhile fun x => (survive K L x).isNone).length := by
  intro s t hcalm hh hrd hL
  obtain ⟨q, h, ho, hc⟩ := nv_reach K len hlen true blockOnRead ops hz hcalm
  have hrd' : (nvHistory K len true false blockOnRead ops).reading.isNone = true := by
    have hrd : (nvHistory K len true false blockOnRead ops).reading = none := hrd
    rw [hrd]; rfl
  have hall := ho.idle' (Or.inl hrd') (ho.clean hh).2
  have hfil : q.items.filter (q.passes K) = q.items := List.filter_eq_self.2 hall
  have hu : s.unread K = q.items.map q.slice := by rw [unread_nv h, hfil]
  have hL' : ∀ p ∈ L, ∃ it ∈ q.items, q.passes K it = true ∧ it.hit p.1 := by
    intro p hp
    obtain ⟨x, hx, hh⟩ := hL p hp
    rw [hu] at hx
    obtain ⟨it, hit, rfl⟩ := List.mem_map.1 hx
    refine ⟨it, hit, hall it hit, ?_⟩
    unfold hits PQ.slice at hh
    rw [q.hb_crc hc] at hh
    unfold Item.hit
    simp only at hh
    omega
  obtain ⟨q', g1, g2, g3, g4, g5⟩ := alters_sim L h hc ho.nb (fun p hp => by
    obtain ⟨it, h1, _, h3⟩ := hL' p hp; exact ⟨it, h1, h3⟩)
  rw [nv_run_append]
  have g5 : (s.run K (L.map fun p => .alter p.1 p.2)).1.core.stats = s.core.stats := g5
  obtain ⟨q1, k1, k2⟩ := g1.step' .dropConsumer (by intro e; cases e)
  obtain ⟨rfl, _⟩ := k1
  have k2 := k2 g3
  obtain ⟨q2, m1, m2⟩ := k2.step' .registerConsumer (by intro e; cases e)
  obtain ⟨rfl, _⟩ := m1
  have m2 := m2 g3
  obtain ⟨q3, _, _, _, n1⟩ := startRead_sim' m2 false
  have n1 := n1 rfl
  have er : ∀ s' : NV, (s'.run K [.dropConsumer, .registerConsumer, .startRead false]).1 =
      ((((s'.step' K .dropConsumer).1.step' K .registerConsumer).1.startRead K false).1) ∧
      ((s'.step' K .dropConsumer).1.step' K .registerConsumer).1.core.stats = s'.core.stats := by
    intro s'
    simp only [NV.run, NV.step, NOp.usesProducer, Bool.and_false, Bool.false_eq_true, if_false]
    refine ⟨rfl, rfl⟩
  rw [(er _).1, n1, (er _).2, g5, hu]
  congr 1
  unfold PQ.bad
  show (q'.items.takeWhile _).length = _
  rw [g4]
  exact bad_count h hc hL' g2 q.items (fun it hit => ⟨hit, hall it hit⟩)

/-- C08, one altered bit is enough: a checksum that detects the change loses exactly that record. -/
theorem C08_one (K : Crc) (len : Nat) (hlen : len < 2 ^ 32) (overwrite blockOnRead : Bool)
    (ops : List NOp) (ht : ∀ op ∈ ops, op.tame = true) (a : Nat) (b : UInt8)
    (A B : List (Range × List UInt8)) (x : Range × List UInt8)
    (hu : (nvAfter K len true overwrite blockOnRead ops).unread K = A ++ x :: B)
    (ha : x.1.start ≤ a ∧ a < x.1.start + x.1.size)
    (hd : K.sum (le32 x.1.size ++ x.2.set (a - x.1.start) b) ≠ K.sum (le32 x.1.size ++ x.2)) :
    (nvAfter K len true overwrite blockOnRead (ops ++ [.alter a b])).unread K = A ++ B := by
  obtain ⟨q, h, hb, hc, _⟩ := tame_run ops (NVSim.new K len true overwrite blockOnRead hlen) ht
    (fun n e => by cases e) rfl
  have h : NVSim K (nvAfter K len true overwrite blockOnRead ops) q := h
  have hc : q.crc = true := hc
  have hs := C08_skips_partial K len hlen overwrite blockOnRead ops ht [(a, b)] (by
    intro p hp
    simp only [List.mem_singleton] at hp
    subst hp
    exact ⟨x, by rw [hu]; simp, Or.inl ha⟩)
  rw [hu] at hs
  have e : ops ++ [(a, b)].map (fun p => NOp.alter p.1 p.2) = ops ++ [.alter a b] := rfl
  rw [e] at hs
  rw [hs]
  have hun := unread_nv h
  rw [hu] at hun
  have hpw : ((q.items.filter (q.passes K)).map q.slice).Pairwise (fun x y =>
      x.1.start + x.1.size + 8 ≤ y.1.start ∨ y.1.start + y.1.size + 8 ≤ x.1.start) := by
    rw [List.pairwise_map]
    refine List.Pairwise.filter _ ?_
    have hp := h.core.layout.pairwise
    rw [List.pairwise_map] at hp
    have hi : q.items.Sublist q.live := by
      unfold PQ.live
      exact (List.sublist_append_left _ _).trans (List.sublist_append_left _ _)
    refine (hp.sublist hi).imp ?_
    intro u v huv
    simp only [Disj, Range.stop, Item.range, q.hb_crc hc] at huv
    simp only [PQ.slice, q.hb_crc hc]
    omega
  have hlen' : ∀ y ∈ A ++ x :: B, y.2.length = y.1.size ∧ 8 ≤ y.1.start := by
    intro y hy
    rw [hun] at hy
    obtain ⟨it, hit, rfl⟩ := List.mem_map.1 hy
    have hit := (List.mem_filter.1 hit).1
    have hm := h.core.mem it (by simp [PQ.live, hit])
    refine ⟨by show it.data.length = it.size; rw [← hm.1, readMem_length], ?_⟩
    show 8 ≤ it.start + q.hb
    rw [q.hb_crc hc]; omega
  rw [← hun] at hpw
  have hother : ∀ y, (y ∈ A ∨ y ∈ B) → survive K [(a, b)] y = some y := by
    intro y hy
    have hmem : y ∈ A ++ x :: B := by rcases hy with hy | hy <;> simp [hy]
    obtain ⟨l1, l2⟩ := hlen' y hmem
    have hdisj : y.1.start + y.1.size + 8 ≤ x.1.start ∨ x.1.start + x.1.size + 8 ≤ y.1.start := by
      rw [List.pairwise_append] at hpw
      rcases hy with hy | hy
      · exact hpw.2.2 y hy x (by simp)
      · exact ((List.pairwise_cons.1 hpw.2.1).1 y hy).symm
    have l3 : (le32 (K.sum (le32 y.1.size ++ y.2))).length = 4 := rfl
    unfold survive
    rw [alterBytes_out (by omega), alterBytes_out (by rw [l3]; omega), ofLe32_le32 _ (K.sum_lt _),
      if_pos rfl]
  have hx : survive K [(a, b)] x = none := by
    obtain ⟨l1, l2⟩ := hlen' x (by simp)
    have l3 : (le32 (K.sum (le32 x.1.size ++ x.2))).length = 4 := rfl
    unfold survive
    rw [alterBytes_in (by omega), alterBytes_out (by rw [l3]; omega), ofLe32_le32 _ (K.sum_lt _),
      if_neg hd]
  have hall : ∀ l : List (Range × List UInt8), (∀ y ∈ l, survive K [(a, b)] y = some y) →
      l.filterMap (survive K [(a, b)]) = l := by
    intro l hl
    induction l with
    | nil => rfl
    | cons y l ih =>
      rw [List.filterMap_cons_some (hl y (by simp)), ih (fun z hz => hl z (by simp [hz]))]
  rw [List.filterMap_append, List.filterMap_cons_none hx, hall A (fun y hy => hother y (Or.inl hy)),
    hall B (fun y hy => hother y (Or.inr hy))]

example :
    let ops := [.registerProducer] ++ put [1, 2] ++ put [3] ++ put [4, 5]
    ((nvAfter testCrc 64 true true true ops).unread testCrc).map (·.2) = [[1, 2], [3], [4, 5]] ∧
    ((nvAfter testCrc 64 true true true (ops ++ [.alter 18 9])).unread testCrc).map (·.2) =
      [[1, 2], [4, 5]] := by decide +kernel

/-- A cursor consumer that meets a corrupt record passes it without acknowledging it: the next
acknowledgement then removes the wrong number of bytes and an unread record ([5, 6, 7]) is lost. -/
theorem C08_cursor_violated :
    let ops := [.registerProducer, .registerCursor] ++ put [1, 2] ++ put [3] ++ put [5, 6, 7] ++
      [.alter 8 9, .cursorRead false, .ack]
    let t := nvHistory testCrc 64 true false true ops
    t.committed.length = 3 ∧ t.taken = [[3]] ∧
    (nvAfter testCrc 64 true false true ops).unread testCrc = [] := by decide +kernel

end Verif.Buffer
