import Verif.Buffer.NVTrace
import Verif.Buffer.NVStep2

/-
The observer of the persistent ring buffer against the queue specification.  Helper lemmas only.
-/
namespace Verif.Buffer

theorem takeWhile_split {α : Type} (p : α → Bool) : ∀ (l : List α) (a : α), l.find? p = some a →
    ∃ rest, l = l.takeWhile (fun x => !p x) ++ a :: rest ∧ p a = true ∧
      l.filter p = a :: rest.filter p
  | [], _, h => by simp at h
  | x :: l, a, h => by
    by_cases hx : p x = true
    · simp only [List.find?_cons, hx] at h
      cases h
      exact ⟨l, by simp [hx], hx, by simp [hx]⟩
    · simp only [List.find?_cons, hx] at h
      obtain ⟨rest, h1, h2, h3⟩ := takeWhile_split p l a h
      refine ⟨rest, ?_, h2, ?_⟩
      · rw [List.takeWhile_cons, if_pos (by simp [hx]), List.cons_append, ← h1]
      · rw [List.filter_cons_of_neg hx, h3]

theorem filter_none {α : Type} (p : α → Bool) (l : List α) (h : l.find? p = none) :
    l.filter p = [] := by
  rw [List.filter_eq_nil_iff]
  intro a ha
  simpa using List.find?_eq_none.1 h a ha

theorem PQ.spoil_tail (q : PQ) : q.spoil.items.tail = q.items.tail := by
  unfold PQ.spoil
  split
  · cases q.items <;> rfl
  · rfl

theorem readAll_nv {K : Crc} (n : Nat) : ∀ {s : NV} {q : PQ}, NVSim K s q →
    q.reader = some (.plain false) → q.items.length ≤ n →
    s.readAll K n = (q.items.filter (q.passes K)).map q.slice := by
  induction n with
  | zero =>
    intro s q h _ hn
    have : q.items = [] := by
      cases hq : q.items with
      | nil => rfl
      | cons a l => rw [hq] at hn; simp at hn
    rw [this]; rfl
  | succ n ih =>
    intro s q h hr hn
    obtain ⟨q1, h1, h2, _⟩ := startRead_sim h false
    unfold PQ.startRead at h2
    rw [hr] at h2
    simp only at h2
    unfold NV.readAll
    cases hs : s.startRead K false with
    | mk s1 r =>
      rw [hs] at h1 h2
      cases hf : q.items.find? (q.passes K) with
      | none =>
        rw [hf] at h2
        obtain ⟨_, h3⟩ := h2
        rw [filter_none _ _ hf]
        cases r with
        | ok x => simp [nothing] at h3
        | err e => rfl
        | blocked => rfl
      | some it =>
        rw [hf] at h2
        obtain ⟨e1, e2⟩ := h2
        simp only at e2
        subst e2
        obtain ⟨rest, r1, r2, r3⟩ := takeWhile_split _ _ _ hf
        simp only
        rw [r3, List.map_cons]
        congr 1
        obtain ⟨q2, h4, h5, _⟩ := finishRead_sim h1
        have hrd : q1.reader = some (.plain true) := by rw [e1]
        unfold PQ.finishRead at h5
        rw [hrd] at h5
        obtain ⟨e3, _⟩ := h5
        have hdi : (q.drop (q.bad K)).items = it :: rest := by
          show q.items.drop (q.bad K) = _
          have : q.bad K = (q.items.takeWhile (fun x => !q.passes K x)).length := rfl
          rw [this]
          exact (congrArg (List.drop _) r1).trans List.drop_left
        have hq2 : q2.items = rest := by
          rw [e3, e1]
          show (q.drop (q.bad K)).spoil.items.drop 1 = rest
          rw [List.drop_one, PQ.spoil_tail, hdi]; rfl
        have hcrc : q2.crc = q.crc := by
          rw [e3, e1]
          show (q.drop (q.bad K)).spoil.crc = _
          unfold PQ.spoil; split <;> rfl
        have := ih h4 (by rw [e3]) (by
          rw [hq2]
          have := congrArg List.length r3
          have h6 := List.length_filter_le (q.passes K) q.items
          have h7 : q.items.length = (q.items.takeWhile (fun x => !q.passes K x)).length + (rest.length + 1) := by
            conv => lhs; rw [r1]
            simp
          omega)
        rw [show (s1.finishRead K).1.readAll K n = _ from this, hq2]
        have hp : q2.passes K = q.passes K := by funext x; simp [PQ.passes, hcrc]
        have hsl : q2.slice = q.slice := by funext x; simp [PQ.slice, PQ.hb, hcrc]
        rw [hp, hsl]

theorem unread_nv {K : Crc} {s : NV} {q : PQ} (h : NVSim K s q) :
    s.unread K = (q.items.filter (q.passes K)).map q.slice := by
  have e : (s.run K [.dropConsumer, .registerConsumer]).1 =
      { s with consumer := some (.plain none) } := by
    simp [NV.run, NV.step, NOp.usesProducer, NV.step']
  have h' : NVSim K { s with consumer := some (.plain none) } { q with reader := some (.plain false) } :=
    ⟨h.crc, ⟨h.core.ow, h.core.xb, h.core.inv, h.core.mem, h.core.holes, h.core.cpos⟩,
          h.producer, rfl, h.hdr, h.parked⟩
  unfold NV.unread
  rw [e, readAll_nv _ h' rfl]
  · rfl
  · show q.items.length ≤ 2 * s.core.len
    have := layout_length h.core.layout
    simp only [List.length_map, PQ.live, List.length_append] at this
    omega

/-! ### The invariant -/

/-- The records a reader still gets, the one being read included. -/
def viewOf (p : Item → Bool) (rd : Option Reader) (items : List Item) : List (List UInt8) :=
  if rd = some (.plain true) then
    (items.take 1).map (·.data) ++ ((items.drop 1).filter p).map (·.data)
  else (items.filter p).map (·.data)

structure NOk (K : Crc) (t : NTrace) (q : PQ) : Prop where
  ow : q.overwrite = false
  nb : q.broken = false
  nil : q.items = [] → q.holes = []
  pend : match q.producer with
    | some (some p) => (∃ d, t.pending = some d ∧ stores d p.data) ∧ p.stored = 0 ∧ p.data.length = p.size
    | _ => t.pending = none
  holes : ∀ it ∈ q.holes, q.passes K it = false
  /-- without abandoned reservations there is nothing to skip -/
  clean : t.holed = false → q.holes = [] ∧
    ∀ it ∈ (if q.reader = some (.plain true) then q.items.drop 1 else q.items), q.passes K it = true
  done : t.taken.length ≤ t.committed.length ∧ storesAll (t.committed.take t.taken.length) t.taken
  left : storesAll (t.committed.drop t.taken.length) (viewOf (q.passes K) q.reader q.items)
  reading : t.reading = (if q.reader = some (.plain true) then q.items.head?.map (·.data) else none)
  busy : q.reader = some (.plain true) → q.items ≠ [] ∧ t.fresh = false
  cursor : match q.reader with
    | some (.cursor n) => t.cursor = true ∧ t.ahead = (q.items.take n).map (·.data) ∧ t.holed = false ∧
        n ≤ q.items.length ∧ q.cpos = some n
    | _ => t.cursor = false ∧ t.ahead = []
  fresh : t.fresh = true → t.holed = false → (∀ n, q.reader ≠ some (.cursor n)) → q.cpos = some 0


theorem NOk.init (K : Crc) (crc : Bool) : NOk K NTrace.empty (PQ.new crc false) := by
  refine ⟨rfl, rfl, fun _ => rfl, rfl, by simp [PQ.new], fun _ => ⟨rfl, by simp [PQ.new]⟩,
    ⟨Nat.le_refl _, List.Forall₂.nil⟩, List.Forall₂.nil, rfl, ?_, ⟨rfl, rfl⟩, fun _ _ _ => rfl⟩
  intro e; cases e

theorem stores_replicate (bs : List UInt8) : stores (List.replicate bs.length none) bs := by
  refine ⟨by simp, fun i b h => ?_⟩
  rw [List.getElem?_replicate] at h
  split at h <;> cases h

theorem stores_overlay {d : List (Option UInt8)} {bs : List UInt8} (h : stores d bs) (off : Nat)
    (bytes : List UInt8) (hb : off + bytes.length ≤ bs.length) :
    stores (overlay d off bytes) (bs.take off ++ bytes ++ bs.drop (off + bytes.length)) := by
  obtain ⟨h1, h2⟩ := h
  refine ⟨by simp [overlay]; omega, fun i b hi => ?_⟩
  simp only [overlay, List.append_assoc] at hi ⊢
  by_cases c1 : i < off
  · rw [List.getElem?_append_left (by simp; omega), List.getElem?_take_of_lt c1] at hi ⊢
    exact h2 i b hi
  · rw [List.getElem?_append_right (by simp; omega)] at hi ⊢
    have e1 : (d.take off).length = off := by simp; omega
    have e2 : (bs.take off).length = off := by simp; omega
    rw [e1] at hi
    rw [e2]
    by_cases c2 : i - off < bytes.length
    · rw [List.getElem?_append_left (by simpa using c2)] at hi ⊢
      rw [List.getElem?_map] at hi
      cases hbb : bytes[i - off]? with
      | none => rw [hbb] at hi; simp at hi
      | some x => rw [hbb] at hi; simp at hi; rw [hi]
    · rw [List.getElem?_append_right (by simpa using c2), List.getElem?_drop] at hi ⊢
      simp only [List.length_map] at hi
      have : off + bytes.length + (i - off - bytes.length) = i := by omega
      rw [this] at hi ⊢
      exact h2 i b hi

theorem NOk.takenLeft {K : Crc} {t : NTrace} {q : PQ} (h : NOk K t q) {x : List UInt8}
    {rest : List (List UInt8)} (hv : viewOf (q.passes K) q.reader q.items = x :: rest) :
    t.taken.length + 1 ≤ t.committed.length ∧
      storesAll (t.committed.take (t.taken.length + 1)) (t.taken ++ [x]) ∧
      storesAll (t.committed.drop (t.taken.length + 1)) rest := by
  have hl := h.left
  rw [hv] at hl
  obtain ⟨h1, h2⟩ := h.done
  cases hd : t.committed.drop t.taken.length with
  | nil => rw [hd] at hl; cases hl
  | cons d ds =>
    rw [hd] at hl
    cases hl with
    | cons a b =>
      have hlt : t.taken.length < t.committed.length := by
        have := congrArg List.length hd
        simp at this; omega
      have hg : t.committed[t.taken.length] = d := by
        have := List.drop_eq_getElem_cons hlt
        rw [hd] at this
        exact (List.cons.inj this).1.symm
      have hds : t.committed.drop (t.taken.length + 1) = ds := by
        have := List.drop_eq_getElem_cons hlt
        rw [hd] at this
        exact (List.cons.inj this).2.symm
      refine ⟨hlt, ?_, by rw [hds]; exact b⟩
      rw [List.take_add_one, List.getElem?_eq_getElem hlt, hg]
      exact List.rel_append h2 (.cons a .nil)

def NTrace.granted (t : NTrace) : Res Range → NTrace
  | .ok r => { t with pending := some (List.replicate r.size none) }
  | _ => t

theorem NOk.reserve {K : Crc} {t : NTrace} {q q' : PQ} {r : Res Range} (h : NOk K t q)
    (hs : q.reserve q' r) :
    NOk K (t.granted r) q' ∧ q'.crc = q.crc := by
  rcases hs with ⟨rfl, hr⟩ | ⟨hp, n, start, size, data, hn, hd, rfl, rfl⟩
  · cases r with
    | ok a => exact absurd rfl (hr a)
    | err e => exact ⟨h, rfl⟩
    | blocked => exact ⟨h, rfl⟩
  · have hn0 : n = 0 := by
      rcases hn with hn | hn
      · exact hn
      · rw [h.ow] at hn; cases hn.1
    subst hn0
    rw [PQ.drop_zero h.nil]
    refine ⟨⟨h.ow, h.nb, h.nil, ?_, h.holes, h.clean, h.done, h.left, h.reading, h.busy, h.cursor,
      h.fresh⟩, rfl⟩
    refine ⟨⟨_, rfl, ?_⟩, rfl, hd⟩
    show stores (List.replicate size none) data
    rw [← hd]
    exact stores_replicate data

/-- The reservation is abandoned. -/
theorem NOk.abandon {K : Crc} {t : NTrace} {q : PQ} (h : NOk K t q) (rd : Option Reader)
    (cp : Option Nat) (t' : NTrace)
    (hz : ∀ p, q.producer = some (some p) → q.crc = true ∧ p.sum K ≠ 0)
    (e1 : t'.pending = none) (e2 : t'.committed = t.committed) (e3 : t'.taken = t.taken)
    (e4 : t'.holed = (t.holed || t.pending.isSome))
    (hview : viewOf (q.passes K) rd q.items = viewOf (q.passes K) q.reader q.items)
    (hclean : (∀ it ∈ (if q.reader = some (.plain true) then q.items.drop 1 else q.items),
        q.passes K it = true) →
      ∀ it ∈ (if rd = some (.plain true) then q.items.drop 1 else q.items), q.passes K it = true)
    (hreading : t'.reading = (if rd = some (.plain true) then q.items.head?.map (·.data) else none))
    (hbusy : rd = some (.plain true) → q.items ≠ [] ∧ t'.fresh = false)
    (hcursor : match rd with
      | some (.cursor n) => t'.cursor = true ∧ t'.ahead = (q.items.take n).map (·.data) ∧
          t'.holed = false ∧ n ≤ q.items.length ∧ cp = some n
      | _ => t'.cursor = false ∧ t'.ahead = [])
    (hfresh : t'.fresh = true → t'.holed = false → (∀ n, rd ≠ some (.cursor n)) → cp = some 0) :
    NOk K t' { q.abandon with reader := rd, cpos := cp } := by
  have hpend : ∀ it ∈ q.pend, q.passes K it = false := by
    intro it hit
    unfold PQ.pend at hit
    split at hit
    · rename_i p hp
      have : it = p := by simpa using hit
      subst this
      obtain ⟨z1, z2⟩ := hz it hp
      have := h.pend
      rw [hp] at this
      simp [PQ.passes, z1, this.2.1, z2]
    · cases hit
  refine ⟨h.ow, h.nb, ?_, e1, ?_, ?_, by rw [e2, e3]; exact h.done, ?_, hreading, hbusy, hcursor, hfresh⟩
  · intro e
    show holesAfter q.items _ = []
    rw [show q.items = [] from e]; rfl
  · intro it hit
    simp only [PQ.abandon, holesAfter] at hit
    split at hit
    · cases hit
    · rcases List.mem_append.1 hit with hit | hit
      · exact h.holes it hit
      · exact hpend it hit
  · intro hh
    rw [e4, Bool.or_eq_false_iff] at hh
    obtain ⟨c1, c2⟩ := h.clean hh.1
    refine ⟨?_, hclean c2⟩
    have : q.pend = [] := by
      unfold PQ.pend
      split
      · rename_i p hp
        have := h.pend
        rw [hp] at this
        obtain ⟨⟨d, hd, _⟩, _⟩ := this
        rw [hd] at hh
        simp at hh
      · rfl
    show holesAfter q.items (q.holes ++ q.pend) = []
    rw [c1, this]
    unfold holesAfter; split <;> rfl
  · rw [e2, e3]
    show storesAll _ (viewOf (q.passes K) rd q.items)
    rw [hview]; exact h.left


/-- Dropping the consumer loses nothing, unless it is in the middle of a read with checksums. -/
theorem NOk.idle' {K : Crc} {t : NTrace} {q : PQ} (h : NOk K t q)
    (hc : t.reading.isNone = true ∨ q.crc = false)
    (hcl : ∀ it ∈ (if q.reader = some (.plain true) then q.items.drop 1 else q.items),
      q.passes K it = true) :
    ∀ it ∈ q.items, q.passes K it = true := by
  by_cases hr : q.reader = some (.plain true)
  · have hrd := h.reading
    rw [if_pos hr] at hrd
    have hcr : q.crc = false := by
      rcases hc with hc | hc
      · cases hi : q.items with
        | nil => exact absurd hi (h.busy hr).1
        | cons a l => rw [hrd, hi] at hc; cases hc
      · exact hc
    intro it _
    simp [PQ.passes, hcr]
  · rw [if_neg hr] at hcl; exact hcl

theorem NOk.idle {K : Crc} {t : NTrace} {q : PQ} (h : NOk K t q)
    (hc : t.reading.isNone = true ∨ q.crc = false) :
    (t.holed = false → ∀ it ∈ q.items, q.passes K it = true) ∧
    viewOf (q.passes K) q.reader q.items = viewOf (q.passes K) none q.items := by
  refine ⟨fun hh => h.idle' hc (h.clean hh).2, ?_⟩
  by_cases hr : q.reader = some (.plain true)
  · have hrd := h.reading
    rw [if_pos hr] at hrd
    have hcr : q.crc = false := by
      rcases hc with hc | hc
      · cases hi : q.items with
        | nil => exact absurd hi (h.busy hr).1
        | cons a l => rw [hrd, hi] at hc; cases hc
      · exact hc
    have hall : ∀ l : List Item, l.filter (q.passes K) = l := by
      intro l
      rw [List.filter_eq_self]
      intro it _
      simp [PQ.passes, hcr]
    unfold viewOf
    rw [if_pos hr, if_neg (by simp), hall, hall, ← List.map_append, List.take_append_drop]
  · unfold viewOf
    rw [if_neg hr, if_neg (by simp)]

theorem NOk.freshIdle {K : Crc} {t : NTrace} {q : PQ} (h : NOk K t q) (h1 : t.fresh = true)
    (h2 : t.ahead = []) (h3 : t.holed = false) : q.cpos = some 0 := by
  by_cases hn : ∃ n, q.reader = some (.cursor n)
  · obtain ⟨n, hr⟩ := hn
    have hcu := h.cursor
    rw [hr] at hcu
    obtain ⟨_, a2, _, a4, a5⟩ := hcu
    rw [h2] at a2
    have hn0 : n = 0 := by
      have := congrArg List.length a2
      rw [List.length_map, List.length_take, List.length_nil] at this
      omega
    rw [a5, hn0]
  · exact h.fresh h1 h3 (fun n hr => hn ⟨n, hr⟩)

theorem calm_mono {crc : Bool} {t : NTrace} {op : NOp} {o : Out}
    (h : (t.step crc op o).calm = true) : t.calm = true := by
  unfold NTrace.step at h
  split at h <;> simp_all

theorem NOk.step {K : Crc} {t : NTrace} {q q' : PQ} {op : NOp} {o : Out} (h : NOk K t q)
    (hs : q.steps K op q' o) (hc : (t.step q.crc op o).calm = true)
    (hz : (op = .dropProducer ∨ op = .restart) → q.crc = true →
      ∀ p, q.producer = some (some p) → p.sum K ≠ 0) :
    NOk K (t.step q.crc op o) q' ∧ q'.crc = q.crc := by
  rcases hs with hs | ⟨hu, rfl, rfl⟩
  swap
  · have : t.step q'.crc op (.unit .blocked) = t := by
      cases op <;> first | rfl | cases hu
    rw [this]; exact ⟨h, rfl⟩
  have hp := h.pend
  cases op with
  | registerProducer =>
    simp only [PQ.allows] at hs
    have e : t.step q.crc .registerProducer o = t := by cases o <;> rfl
    rw [e]
    cases hq : q.producer with
    | none =>
      rw [hq] at hs hp
      obtain ⟨rfl, _⟩ := hs
      exact ⟨⟨h.ow, h.nb, h.nil, hp, h.holes, h.clean, h.done, h.left, h.reading, h.busy, h.cursor,
        h.fresh⟩, rfl⟩
    | some x =>
      rw [hq] at hs
      obtain ⟨rfl, _⟩ := hs
      exact ⟨h, rfl⟩
  | dropProducer =>
    obtain ⟨rfl, rfl⟩ := hs
    refine ⟨?_, rfl⟩
    have hcalm : t.pending.isNone = true ∨ (q.crc = true ∧ t.cursor = false) := by
      simp only [NTrace.step, Bool.and_eq_true, Bool.or_eq_true, Bool.not_eq_true'] at hc
      exact hc.2
    have hpp : ∀ p, q.producer = some (some p) → q.crc = true ∧ t.cursor = false := by
      intro p hpq
      rw [hpq] at hp
      obtain ⟨⟨d, hd, _⟩, _⟩ := hp
      rw [hd] at hcalm
      simpa using hcalm
    refine h.abandon q.reader q.cpos _ (fun p hpq => ⟨(hpp p hpq).1, hz (Or.inl rfl) (hpp p hpq).1 p hpq⟩)
      rfl rfl rfl rfl rfl id h.reading h.busy ?_ ?_
    · have hcu := h.cursor
      cases hr : q.reader with
      | none => rw [hr] at hcu; exact hcu
      | some rd =>
        rw [hr] at hcu
        cases rd with
        | plain b => exact hcu
        | cursor n =>
          refine ⟨hcu.1, hcu.2.1, ?_, hcu.2.2.2⟩
          show (t.holed || t.pending.isSome) = false
          rw [hcu.2.2.1, Bool.false_or]
          rcases hcalm with hcalm | hcalm
          · simpa using hcalm
          · rw [hcu.1] at hcalm; cases hcalm.2
    · intro f1 f2 f3
      refine h.fresh f1 ?_ f3
      have f2 : (t.holed || t.pending.isSome) = false := f2
      exact (Bool.or_eq_false_iff.1 f2).1
  | reserve size block =>
    obtain ⟨r, rfl, hs⟩ := hs
    have e : t.step q.crc (.reserve size block) (.slice r) = t.granted r := by cases r <;> rfl
    rw [e]; exact h.reserve hs
  | resume =>
    obtain ⟨r, rfl, hs⟩ := hs
    have e : t.step q.crc .resume (.slice r) = t.granted r := by cases r <;> rfl
    rw [e]; exact h.reserve hs
  | write off bytes =>
    obtain ⟨rfl, rfl⟩ := hs
    unfold PQ.write
    split
    · rename_i p hpq
      rw [hpq] at hp
      obtain ⟨⟨d, hd, hst⟩, h0, hlen⟩ := hp
      split
      · rename_i hb
        refine ⟨⟨h.ow, h.nb, h.nil, ?_, h.holes, h.clean, h.done, h.left, h.reading, h.busy, h.cursor,
          h.fresh⟩, rfl⟩
        refine ⟨⟨overlay d off bytes, ?_, ?_⟩, h0, ?_⟩
        · show t.pending.map _ = _
          rw [hd]; rfl
        · exact stores_overlay hst off bytes (by omega)
        · show (p.data.take off ++ bytes ++ p.data.drop (off + bytes.length)).length = p.size
          simp; omega
      · exact ⟨h, rfl⟩
    · exact ⟨h, rfl⟩
  | commit =>
    obtain ⟨rfl, rfl⟩ := hs
    unfold PQ.commit
    split
    · rename_i p hpq
      rw [hpq] at hp
      obtain ⟨⟨d, hd, hst⟩, h0, hlen⟩ := hp
      simp only
      generalize hp' : (if q.crc = true then { p with stored := p.sum K } else p) = p'
      have hpass : q.passes K p' = true := by
        subst hp'
        unfold PQ.passes
        cases hcr : q.crc with
        | false => rfl
        | true => simp [Item.sum]
      have hdata : p'.data = p.data := by subst hp'; split <;> rfl
      have e : t.step q.crc .commit (.unit (.ok ())) =
          { t with committed := t.committed ++ [d], pending := none } := by
        simp only [NTrace.step, hd]; rfl
      rw [e]
      refine ⟨⟨h.ow, ?_, fun e => by simp at e, rfl, by simp, ?_, ?_, ?_, ?_, fun hr => ⟨by simp, (h.busy hr).2⟩, ?_, ?_⟩, trivial⟩
      · show (q.broken || _) = false
        rw [h.nb, Bool.false_or]
        split
        · rename_i n hr
          have hcu := h.cursor
          rw [hr] at hcu
          have := (h.clean hcu.2.2.1).1
          simp [this]
        · rfl
      · intro hh
        obtain ⟨c1, c2⟩ := h.clean hh
        refine ⟨rfl, ?_⟩
        intro it hit
        show q.passes K it = true
        simp only [c1, List.append_nil] at hit
        split at hit
        · rename_i hr
          have hr : q.reader = some (.plain true) := hr
          rw [if_pos hr] at c2
          rw [List.drop_append] at hit
          rcases List.mem_append.1 hit with hit | hit
          · exact c2 it hit
          · have := List.mem_of_mem_drop hit
            rw [List.mem_singleton.1 this]; exact hpass
        · rename_i hr
          have hr : ¬ q.reader = some (.plain true) := hr
          rw [if_neg hr] at c2
          rcases List.mem_append.1 hit with hit | hit
          · exact c2 it hit
          · rw [List.mem_singleton.1 hit]; exact hpass
      · obtain ⟨d1, d2⟩ := h.done
        refine ⟨by show t.taken.length ≤ (t.committed ++ [d]).length; simp; omega, ?_⟩
        show storesAll ((t.committed ++ [d]).take t.taken.length) t.taken
        rw [List.take_append_of_le_length d1]; exact d2
      · show storesAll ((t.committed ++ [d]).drop t.taken.length) _
        rw [List.drop_append_of_le_length h.done.1]
        have hv : viewOf (q.passes K) q.reader (q.items ++ q.holes ++ [p']) =
            viewOf (q.passes K) q.reader q.items ++ [p.data] := by
          have hho : q.holes.filter (q.passes K) = [] := by
            rw [List.filter_eq_nil_iff]
            intro a ha
            simp [h.holes a ha]
          have hplain : ((q.items ++ q.holes ++ [p']).filter (q.passes K)).map (·.data) =
              (q.items.filter (q.passes K)).map (·.data) ++ [p.data] := by
            rw [List.filter_append, List.filter_append, hho, List.append_nil, List.map_append,
              List.filter_cons_of_pos hpass]
            simp [hdata]
          unfold viewOf
          by_cases hr : q.reader = some (.plain true)
          · rw [if_pos hr, if_pos hr]
            cases hi : q.items with
            | nil => exact absurd hi (h.busy hr).1
            | cons a l =>
              show _ ++ ((l ++ q.holes ++ [p']).filter (q.passes K)).map _ = _
              rw [List.filter_append, List.filter_append, hho, List.append_nil, List.map_append,
                List.filter_cons_of_pos hpass, ← List.append_assoc]
              simp [hdata]
          · rw [if_neg hr, if_neg hr]
            exact hplain
        show storesAll _ (viewOf (q.passes K) q.reader (q.items ++ q.holes ++ [p']))
        rw [hv]
        exact List.rel_append h.left (.cons hst .nil)
      · show t.reading = _
        rw [h.reading]
        by_cases hr : q.reader = some (.plain true)
        · rw [if_pos hr, if_pos (by exact hr)]
          cases hi : q.items with
          | nil => exact absurd hi (h.busy hr).1
          | cons a l => rfl
        · rw [if_neg hr, if_neg (by exact hr)]
      · have hcu := h.cursor
        cases hr : q.reader with
        | none => rw [hr] at hcu; simp only; exact hcu
        | some rd =>
          rw [hr] at hcu
          cases rd with
          | plain b => exact hcu
          | cursor n =>
            obtain ⟨a1, a2, a3, a4, a5⟩ := hcu
            refine ⟨a1, ?_, a3, ?_, ?_⟩
            · show t.ahead = ((q.items ++ q.holes ++ [p']).take n).map _
              rw [List.append_assoc, List.take_append_of_le_length a4]; exact a2
            · show n ≤ (q.items ++ q.holes ++ [p']).length
              simp only [List.length_append]; omega
            · simp [a5, (h.clean a3).1]
      · intro f1 f2 f3
        have := h.fresh f1 f2 f3
        simp [this, (h.clean f2).1]
    · exact ⟨h, rfl⟩
    · exact ⟨h, rfl⟩
  | registerConsumer =>
    simp only [PQ.allows] at hs
    have e : t.step q.crc .registerConsumer o = t := by cases o <;> rfl
    rw [e]
    have hcu := h.cursor
    have hcl := h.clean
    have hrd := h.reading
    have hle := h.left
    have hfr := h.fresh
    cases hr : q.reader with
    | none =>
      rw [hr] at hs hcu hcl hrd hle hfr
      obtain ⟨rfl, _⟩ := hs
      refine ⟨⟨h.ow, h.nb, h.nil, h.pend, h.holes, ?_, h.done, hle, hrd, (fun e => by cases e), hcu, ?_⟩, rfl⟩
      · intro hh
        exact hcl hh
      · intro f1 f2 _
        exact hfr f1 f2 (by simp)
    | some x =>
      rw [hr] at hs
      obtain ⟨rfl, _⟩ := hs
      exact ⟨h, rfl⟩
  | registerCursor =>
    simp only [PQ.allows] at hs
    have hcu := h.cursor
    have hcl := h.clean
    have hrd := h.reading
    have hle := h.left
    have hfr := h.fresh
    cases hr : q.reader with
    | none =>
      rw [hr] at hs hcu hcl hrd hle hfr
      rw [if_neg (by simp [h.ow])] at hs
      have ho : o = .unit (.ok ()) := by split at hs <;> exact hs.2
      · subst ho
        simp only [NTrace.step, Bool.and_eq_true, Bool.not_eq_true'] at hc
        have hcp := hfr hc.1.2 hc.2 (by simp)
        rw [if_pos hcp] at hs
        obtain ⟨rfl, _⟩ := hs
        refine ⟨⟨h.ow, h.nb, h.nil, h.pend, h.holes, ?_, h.done, hle, hrd, (fun e => by cases e),
          ⟨rfl, ?_, hc.2, Nat.zero_le _, hcp⟩, ?_⟩, rfl⟩
        · intro hh
          exact hcl hh
        · exact hcu.2
        · intro f1 f2 f3
          exact absurd rfl (f3 0)
    | some x =>
      rw [hr, if_pos (by simp)] at hs
      obtain ⟨rfl, rfl⟩ := hs
      exact ⟨h, rfl⟩
  | dropConsumer =>
    obtain ⟨rfl, rfl⟩ := hs
    have hcalm : t.reading.isNone = true ∨ q.crc = false := by
      simp only [NTrace.step, Bool.and_eq_true, Bool.or_eq_true, Bool.not_eq_true'] at hc
      exact hc.2
    have hid := h.idle hcalm
    refine ⟨⟨h.ow, h.nb, h.nil, h.pend, h.holes, fun hh => ⟨(h.clean hh).1, hid.1 hh⟩, h.done, ?_, rfl,
      (fun e => by cases e), ⟨rfl, rfl⟩, ?_⟩, rfl⟩
    · show storesAll (t.committed.drop t.taken.length) (viewOf (q.passes K) none q.items)
      rw [← hid.2]; exact h.left
    · intro f1 f2 _
      simp only [NTrace.step, Bool.and_eq_true, List.isEmpty_iff] at f1
      exact h.freshIdle f1.1 f1.2 f2
  | startRead b =>
    obtain ⟨r, rfl, hs⟩ := hs
    unfold PQ.startRead at hs
    have hsame : ∀ e : Code, t.step q.crc (.startRead b) (.record (.err e)) = t := fun _ => rfl
    split at hs
    · rename_i hr
      have hview : viewOf (q.passes K) q.reader q.items = (q.items.filter (q.passes K)).map (·.data) := by
        unfold viewOf; rw [hr]; rfl
      have hle := h.left
      rw [hview] at hle
      have hcu := h.cursor
      rw [hr] at hcu
      split at hs
      · rename_i it hf
        obtain ⟨rfl, rfl⟩ := hs
        obtain ⟨rest, r1, r2, r3⟩ := takeWhile_split _ _ _ hf
        have hdi : (q.drop (q.bad K)).items = it :: rest := by
          show q.items.drop (q.bad K) = _
          have : q.bad K = (q.items.takeWhile (fun x => !q.passes K x)).length := rfl
          rw [this]
          exact (congrArg (List.drop _) r1).trans List.drop_left
        have hdh : (q.drop (q.bad K)).holes = q.holes := by
          have : (q.drop (q.bad K)).holes = holesAfter (q.drop (q.bad K)).items q.holes := rfl
          rw [this, hdi]; rfl
        obtain ⟨it', hsp, hit'⟩ : ∃ it', (q.drop (q.bad K)).spoil =
            { q.drop (q.bad K) with items := it' :: rest } ∧ it'.data = it.data := by
          unfold PQ.spoil
          split
          · exact ⟨{ it with stored := 0 }, by simp [hdi], rfl⟩
          · exact ⟨it, by rw [← hdi], rfl⟩
        rw [hsp]
        refine ⟨⟨h.ow, h.nb, (fun e => by cases e), h.pend, ?_, ?_, h.done, ?_, ?_, ?_, hcu, ?_⟩, rfl⟩
        · intro x hx
          exact h.holes x (by rw [← hdh]; exact hx)
        · intro hh
          obtain ⟨c1, c2⟩ := h.clean hh
          rw [hr, if_neg (by simp)] at c2
          refine ⟨hdh.trans c1, ?_⟩
          intro x hx
          have hx : x ∈ rest := hx
          exact c2 x (by rw [r1]; simp [hx])
        · show storesAll (t.committed.drop t.taken.length) (it'.data :: (rest.filter (q.passes K)).map _)
          rw [r3, List.map_cons] at hle
          rw [hit']; exact hle
        · show some it.data = some it'.data
          rw [hit']
        · intro _; exact ⟨by simp, rfl⟩
        · intro f1; cases f1
      · rename_i hf
        obtain ⟨rfl, hno⟩ := hs
        have e : t.step q.crc (.startRead b) (.record r) = t := by
          cases r with
          | ok a => simp [nothing] at hno
          | err e => rfl
          | blocked => rfl
        rw [e]
        have hi : (q.drop q.items.length).items = [] := by simp [PQ.drop]
        have hh : (q.drop q.items.length).holes = [] := by simp [PQ.drop, holesAfter]
        rw [filter_none _ _ hf] at hle
        refine ⟨⟨h.ow, h.nb, fun _ => hh, h.pend, ?_, ?_, h.done, ?_, ?_, ?_, ?_, ?_⟩, rfl⟩
        · rw [hh]; intro x hx; cases hx
        · intro _; rw [hi, hh]; simp
        · rw [hi]
          show storesAll _ (viewOf _ q.reader [])
          rw [hr]; exact hle
        · rw [h.reading, hi]
          show _ = if q.reader = some (.plain true) then _ else _
          rw [hr]; rfl
        · intro e
          have e : q.reader = some (.plain true) := e
          rw [hr] at e; cases e
        · show match q.reader with | some (.cursor n) => _ | _ => _
          rw [hr]; exact hcu
        · intro f1 f2 f3
          obtain ⟨_, c2⟩ := h.clean f2
          rw [hr, if_neg (by simp)] at c2
          have hnil : q.items = [] := by
            cases hq : q.items with
            | nil => rfl
            | cons a l =>
              have := List.find?_eq_none.1 hf a (by simp [hq])
              exact absurd (c2 a (by simp [hq])) this
          have := h.fresh f1 f2 f3
          simp [PQ.drop, hnil, this]
    · obtain ⟨rfl, rfl⟩ := hs
      exact ⟨h, rfl⟩
    · obtain ⟨rfl, rfl⟩ := hs
      exact ⟨h, rfl⟩
  | finishRead =>
    obtain ⟨r, rfl, hs⟩ := hs
    unfold PQ.finishRead at hs
    split at hs
    · rename_i hr
      obtain ⟨rfl, w, rfl⟩ := hs
      obtain ⟨hne, hnf⟩ := h.busy hr
      have hcu := h.cursor
      rw [hr] at hcu
      cases hi : q.items with
      | nil => exact absurd hi hne
      | cons it rest =>
        have hview : viewOf (q.passes K) q.reader q.items =
            it.data :: (rest.filter (q.passes K)).map (·.data) := by
          unfold viewOf; rw [hr, hi]; rfl
        have hread : t.reading = some it.data := by rw [h.reading, hr, hi]; rfl
        obtain ⟨d1, d2, d3⟩ := h.takenLeft hview
        have hi' : (q.drop 1).items = rest := by simp [PQ.drop, hi]
        have hh' : (q.drop 1).holes = holesAfter rest q.holes := by simp [PQ.drop, hi]
        have e : t.step q.crc .finishRead (.finished (.ok w)) =
            { t with taken := t.taken ++ [it.data], reading := none } := by
          simp only [NTrace.step, hread]; rfl
        rw [e]
        have hlen : (t.taken ++ [it.data]).length = t.taken.length + 1 := by simp
        refine ⟨⟨h.ow, h.nb, ?_, h.pend, ?_, ?_, ?_, ?_, rfl, (fun e => by cases e), hcu, ?_⟩, rfl⟩
        · intro e
          have e : rest = [] := by rw [← hi']; exact e
          show (q.drop 1).holes = []
          rw [hh', e]; rfl
        · intro x hx
          have hx : x ∈ (q.drop 1).holes := hx
          rw [hh'] at hx
          unfold holesAfter at hx
          split at hx
          · cases hx
          · exact h.holes x hx
        · intro hh
          obtain ⟨c1, c2⟩ := h.clean hh
          rw [hr, if_pos rfl, hi] at c2
          refine ⟨?_, ?_⟩
          · show (q.drop 1).holes = []
            rw [hh', c1]; unfold holesAfter; split <;> rfl
          · intro x hx
            have hx : x ∈ (q.drop 1).items := hx
            rw [hi'] at hx
            exact c2 x hx
        · refine ⟨?_, ?_⟩
          · show (t.taken ++ [it.data]).length ≤ t.committed.length
            rw [hlen]; exact d1
          · show storesAll (t.committed.take (t.taken ++ [it.data]).length) (t.taken ++ [it.data])
            rw [hlen]; exact d2
        · show storesAll (t.committed.drop (t.taken ++ [it.data]).length)
            (((q.drop 1).items.filter (q.passes K)).map _)
          rw [hlen, hi']; exact d3
        · intro f1
          have f1 : t.fresh = true := f1
          rw [hnf] at f1; cases f1
    · obtain ⟨rfl, rfl⟩ := hs
      exact ⟨h, rfl⟩
    · obtain ⟨rfl, rfl⟩ := hs
      exact ⟨h, rfl⟩
  | cursorRead b =>
    obtain ⟨r, rfl, hs⟩ := hs
    unfold PQ.cursorRead at hs
    split at hs
    · rename_i n hr
      have hcu := h.cursor
      rw [hr] at hcu
      obtain ⟨a1, a2, a3, a4, a5⟩ := hcu
      obtain ⟨c1, c2⟩ := h.clean a3
      rw [hr, if_neg (by simp)] at c2
      split at hs
      · rename_i it hin
        have hlt : n < q.items.length := by
          rcases Nat.lt_or_ge n q.items.length with hlt | hge
          · exact hlt
          · rw [List.getElem?_eq_none hge] at hin; cases hin
        have hmem : it ∈ q.items := List.mem_of_getElem? hin
        rw [if_pos (c2 it hmem)] at hs
        obtain ⟨rfl, rfl⟩ := hs
        have hle := h.left
        have hrd := h.reading
        rw [hr] at hle hrd
        refine ⟨⟨h.ow, h.nb, h.nil, h.pend, h.holes, fun _ => ⟨c1, c2⟩, h.done, hle, hrd,
          (fun e => by cases e), ⟨a1, ?_, a3, hlt, rfl⟩, ?_⟩, rfl⟩
        · show t.ahead ++ [it.data] = (q.items.take (n + 1)).map _
          rw [List.take_add_one, hin, a2]
          simp
        · intro _ _ f3
          exact absurd rfl (f3 (n + 1))
      · obtain ⟨rfl, hno⟩ := hs
        have e : t.step q'.crc (.cursorRead b) (.record r) = t := by
          cases r with
          | ok a => simp [nothing] at hno
          | err e => rfl
          | blocked => rfl
        rw [e]; exact ⟨h, rfl⟩
    · obtain ⟨rfl, rfl⟩ := hs
      exact ⟨h, rfl⟩
  | ack =>
    obtain ⟨r, rfl, hs⟩ := hs
    unfold PQ.ack at hs
    split at hs
    · rename_i n hr
      obtain ⟨rfl, w, rfl⟩ := hs
      have hcu := h.cursor
      rw [hr] at hcu
      obtain ⟨a1, a2, a3, a4, a5⟩ := hcu
      obtain ⟨c1, c2⟩ := h.clean a3
      rw [hr, if_neg (by simp)] at c2
      cases hi : q.items with
      | nil => rw [hi] at a4; simp at a4
      | cons it rest =>
        rw [hi] at a2 a4 c2
        have hview : viewOf (q.passes K) q.reader q.items =
            it.data :: (rest.filter (q.passes K)).map (·.data) := by
          unfold viewOf
          rw [hr, hi, if_neg (by simp), List.filter_cons_of_pos (c2 it (by simp))]
          rfl
        obtain ⟨d1, d2, d3⟩ := h.takenLeft hview
        have hi' : (q.drop 1).items = rest := by simp [PQ.drop, hi]
        have hh' : (q.drop 1).holes = [] := by
          simp [PQ.drop, hi, c1, holesAfter]
        have e : t.step q.crc .ack (.finished (.ok w)) =
            { t with taken := t.taken ++ [it.data], ahead := (rest.take n).map (·.data) } := by
          simp only [NTrace.step, a2]; rfl
        rw [e]
        have hlen : (t.taken ++ [it.data]).length = t.taken.length + 1 := by simp
        have hrd := h.reading
        rw [hr] at hrd
        refine ⟨⟨h.ow, h.nb, fun _ => hh', h.pend, ?_, ?_, ?_, ?_, hrd, (fun e => by cases e),
          ⟨a1, ?_, a3, ?_, ?_⟩, ?_⟩, rfl⟩
        · intro x hx
          have hx : x ∈ (q.drop 1).holes := hx
          rw [hh'] at hx; cases hx
        · intro _
          refine ⟨hh', ?_⟩
          intro x hx
          have hx : x ∈ (q.drop 1).items := hx
          rw [hi'] at hx
          exact c2 x (by simp [hx])
        · refine ⟨?_, ?_⟩
          · show (t.taken ++ [it.data]).length ≤ t.committed.length
            rw [hlen]; exact d1
          · show storesAll (t.committed.take (t.taken ++ [it.data]).length) (t.taken ++ [it.data])
            rw [hlen]; exact d2
        · show storesAll (t.committed.drop (t.taken ++ [it.data]).length)
            (((q.drop 1).items.filter (q.passes K)).map _)
          rw [hlen, hi']; exact d3
        · show _ = ((q.drop 1).items.take n).map _
          rw [hi']
        · show n ≤ (q.drop 1).items.length
          rw [hi']
          simp only [List.length_cons] at a4
          omega
        · simp [PQ.drop, a5]
        · intro _ _ f3
          exact absurd rfl (f3 n)
    · obtain ⟨rfl, rfl⟩ := hs
      exact ⟨h, rfl⟩
  | waitForDrain =>
    obtain ⟨rfl, w, rfl⟩ := hs
    exact ⟨h, rfl⟩
  | lock => obtain ⟨rfl, rfl⟩ := hs; exact ⟨h, rfl⟩
  | unlock => obtain ⟨rfl, rfl⟩ := hs; exact ⟨h, rfl⟩
  | shutdown => obtain ⟨rfl, rfl⟩ := hs; exact ⟨h, rfl⟩
  | alter addr b => exact absurd hc (by simp [NTrace.step])
  | restart =>
    obtain ⟨rfl, rfl⟩ := hs
    refine ⟨?_, rfl⟩
    simp only [NTrace.step, Bool.and_eq_true, Bool.or_eq_true, Bool.not_eq_true'] at hc
    obtain ⟨⟨_, hc1⟩, hc2⟩ := hc
    have hid := h.idle hc2
    refine h.abandon none (some 0) _ ?_ rfl rfl rfl rfl hid.2.symm ?_ rfl (fun e => by cases e)
      ⟨rfl, rfl⟩ (fun _ _ _ => rfl)
    · intro p hpq
      have hcr : q.crc = true := by
        rw [hpq] at hp
        obtain ⟨⟨d, hd, _⟩, _⟩ := hp
        rw [hd] at hc1
        simpa using hc1
      exact ⟨hcr, hz (Or.inr rfl) hcr p hpq⟩
    · intro hcl
      exact h.idle' hc2 hcl


/-- The observer's invariant along a history of the code, together with any invariant of the queue. -/
theorem nv_inv' {K : Crc} (P : PQ → Prop)
    (hP : ∀ {q q' : PQ} {op : NOp} {o : Out}, P q → q.steps K op q' o → q'.broken = false →
      (∀ a b, op ≠ .alter a b) → P q') (ops : List NOp) :
    ∀ {s : NV} {q : PQ} {t : NTrace}, NVSim K s q → NOk K t q → P q →
    NoZero K s ops → (t.run q.crc ops (s.run K ops).2).calm = true →
    ∃ q', NVSim K (s.run K ops).1 q' ∧ NOk K (t.run q.crc ops (s.run K ops).2) q' ∧ q'.crc = q.crc ∧ P q' := by
  induction ops with
  | nil => intro s q t h ho hp _ _; exact ⟨q, h, ho, rfl, hp⟩
  | cons op ops ih =>
    intro s q t h ho hp hz hc
    obtain ⟨q1, h1, h2⟩ := h.step op
    have e : (s.run K (op :: ops)).2 = (s.step K op).2 :: ((s.step K op).1.run K ops).2 := rfl
    have e1 : (s.run K (op :: ops)).1 = ((s.step K op).1.run K ops).1 := rfl
    rw [e] at hc ⊢
    rw [e1]
    have hr : ∀ t : NTrace, t.run q.crc (op :: ops) ((s.step K op).2 :: ((s.step K op).1.run K ops).2) =
      (t.step q.crc op (s.step K op).2).run q.crc ops ((s.step K op).1.run K ops).2 := fun _ => rfl
    rw [hr] at hc ⊢
    have hmono : ∀ (ops : List NOp) (os : List Out) (t : NTrace), (t.run q.crc ops os).calm = true →
        t.calm = true := by
      intro ops
      induction ops with
      | nil => intro os t hc; cases os <;> exact hc
      | cons op ops ih2 =>
        intro os t hc
        cases os with
        | nil => exact hc
        | cons o os => exact calm_mono (ih2 os _ hc)
    obtain ⟨ho1, hcr⟩ := ho.step h1 (hmono _ _ _ hc) (by
      intro hop hcrc p hp
      have hpr := h.producer
      rw [hp] at hpr
      have := hz.1 hop (p.range q.hb) hpr
      have hpm : p ∈ q.live := by simp [PQ.live, PQ.pend, hp]
      have hmp := h.core.mem p hpm
      have hd := h.core.hdrOk hpm
      have h8 := PQ.hb_crc hcrc
      rw [hcrc, h8] at hmp
      rw [h8] at hd this
      rw [hmp.sum (by rw [h.core.xb, h8]) hd] at this
      exact this)
    have hp1 : P q1 := hP hp h1 ho1.nb (by
      rintro a b rfl
      have := hmono _ _ _ hc
      simp [NTrace.step] at this)
    obtain ⟨q2, h3, h4, h5, h6⟩ := ih (h2 ho1.nb) ho1 hp1 hz.2 (by rw [hcr]; exact hc)
    rw [hcr] at h4 h5
    exact ⟨q2, h3, h4, h5, h6⟩

theorem nv_inv {K : Crc} (ops : List NOp) {s : NV} {q : PQ} {t : NTrace} (h : NVSim K s q) (ho : NOk K t q)
    (hz : NoZero K s ops) (hc : (t.run q.crc ops (s.run K ops).2).calm = true) :
    ∃ q', NVSim K (s.run K ops).1 q' ∧ NOk K (t.run q.crc ops (s.run K ops).2) q' ∧ q'.crc = q.crc := by
  obtain ⟨q', h1, h2, h3, _⟩ := nv_inv' (fun _ => True) (fun _ _ _ _ => trivial) ops h ho trivial hz hc
  exact ⟨q', h1, h2, h3⟩

theorem nv_reach (K : Crc) (len : Nat) (hlen : len < 2 ^ 32) (crc blockOnRead : Bool) (ops : List NOp)
    (hz : NoZero K (NV.new K len crc false blockOnRead) ops)
    (hc : (nvHistory K len crc false blockOnRead ops).calm = true) :
    ∃ q, NVSim K (nvAfter K len crc false blockOnRead ops) q ∧
      NOk K (nvHistory K len crc false blockOnRead ops) q ∧ q.crc = crc := by
  have h := NVSim.new K len crc false blockOnRead hlen
  obtain ⟨q, h1, h2, h3⟩ := nv_inv ops h (NOk.init K crc) hz hc
  exact ⟨q, h1, h2, h3⟩

end Verif.Buffer
