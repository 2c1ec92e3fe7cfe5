import Verif.Buffer.SimStep
import Verif.Buffer.Trace

/-
Relates the outside view of the ring buffer (`Trace`) to the FIFO specification.  Helper lemmas only.
-/
namespace Verif.Buffer

def Slot.grant (s : Slot) : Grant := ⟨s.owner, ⟨s.start + 4, s.size⟩, s.data, s.committed⟩

/-- Invariant of the history. `ids` are the grants read to completion, `lost` the overwritten ones. -/
structure TInv (t : Trace) (f : Fifo) (ids lost : List Nat) : Prop where
  granted : f.granted = t.grants.length
  slots : ∀ s ∈ f.slots, t.grants[s.id]? = some s.grant
  sorted : f.slots.Pairwise (fun a b => a.id < b.id)
  incr : ids.Pairwise (· < ·)
  before : ∀ i ∈ ids, ∀ s ∈ f.slots, i < s.id
  lostBefore : ∀ i ∈ lost, ∀ s ∈ f.slots, i < s.id
  len : ids.length = t.delivered.length
  del : ∀ (k i : Nat) (bs : List UInt8), ids[k]? = some i → t.delivered[k]? = some bs →
    ∃ g : Grant, t.grants[i]? = some g ∧ g.committed = true ∧ stores g.data bs
  lostCom : ∀ i ∈ lost, ∃ g : Grant, t.grants[i]? = some g ∧ g.committed = true
  perm : (ids ++ lost ++ f.slots.map (·.id)).Perm (List.range f.granted)
  reading : match t.reading with
    | none => f.consumer ≠ some true
    | some (r, bs) => f.consumer = some true ∧ ∃ s, f.slots.head? = some s ∧
        r = ⟨s.start + 4, s.size⟩ ∧ stores s.data bs ∧ s.committed = true
  lostN : f.lostRecords = lost.length

theorem TInv.new (len : Nat) : TInv Trace.empty (Fifo.new len) [] [] := by
  refine ⟨rfl, by simp [Fifo.new], .nil, .nil, by simp, by simp, rfl, by simp, by simp, by simp [Fifo.new],
    by simp [Trace.empty, Fifo.new], rfl⟩

theorem head_committed {v : Vol} {f : Fifo} {U O : List Slot} (h : Sim v f U O)
    (hc : f.consumer = some true) : ∃ s rest, f.slots = s :: rest ∧ s.committed = true ∧
      v.consumer = some (some s.range) := by
  have := h.cons
  rw [hc] at this
  obtain ⟨s, hs, hv⟩ := this
  cases U with
  | nil => simp at hs
  | cons u U =>
    obtain rfl : u = s := by simpa using hs
    exact ⟨u, U ++ O, by simp [h.slots], h.com u (by simp), hv⟩

theorem filter_split {α : Type} (p : α → Bool) (l : List α) :
    (l.filter p ++ l.filter (fun a => !p a)).Perm l := by
  induction l with
  | nil => exact .nil
  | cons a l ih =>
    cases h : p a
    · simp only [List.filter_cons, h, Bool.false_eq_true, if_false, Bool.not_false, if_true]
      exact List.perm_middle.trans (ih.cons a)
    · simp only [List.filter_cons, h, if_true, Bool.not_true, Bool.false_eq_true, if_false,
        List.cons_append]
      exact ih.cons a

/-- Updating the slots and the grants by the same function. -/
theorem TInv.map {t : Trace} {f : Fifo} {ids lost : List Nat} (h : TInv t f ids lost)
    (g : Slot → Slot) (g' : Grant → Grant)
    (hg : ∀ s, (g s).grant = g' s.grant) (hid : ∀ s, (g s).id = s.id)
    (hcom : ∀ s : Slot, s.committed = true → g s = s)
    (hcom' : ∀ x : Grant, x.committed = true → g' x = x) :
    TInv { t with grants := t.grants.map g' } { f with slots := f.slots.map g } ids lost := by
  obtain ⟨h1, h2, h3, h4, h5, h5', h6, h7, h8, h9, h10, h11⟩ := h
  refine ⟨by simp [h1], ?_, ?_, h4, ?_, ?_, h6, ?_, ?_, ?_, ?_, h11⟩
  · intro s hs
    obtain ⟨s, hs', rfl⟩ := List.mem_map.1 hs
    simp [hid, h2 s hs', hg]
  · rw [List.pairwise_map]
    exact h3.imp (by intro a b hab; rw [hid, hid]; exact hab)
  · intro i hi s hs
    obtain ⟨s, hs', rfl⟩ := List.mem_map.1 hs
    rw [hid]; exact h5 i hi s hs'
  · intro i hi s hs
    obtain ⟨s, hs', rfl⟩ := List.mem_map.1 hs
    rw [hid]; exact h5' i hi s hs'
  · intro k i bs hk hd
    obtain ⟨x, hx, hc, hs⟩ := h7 k i bs hk hd
    exact ⟨x, by simp [hx, hcom' x hc], hc, hs⟩
  · intro i hi
    obtain ⟨x, hx, hc⟩ := h8 i hi
    exact ⟨x, by simp [hx, hcom' x hc], hc⟩
  · have : (f.slots.map g).map (·.id) = f.slots.map (·.id) := by
      rw [List.map_map]; apply List.map_congr_left; intro s _; exact hid s
    simp only [this]; exact h9
  · revert h10
    simp only
    cases t.reading with
    | none => exact id
    | some x =>
      obtain ⟨r, bs⟩ := x
      rintro ⟨hc, s, hs, hr, hst', hsc⟩
      refine ⟨hc, s, ?_, hr, hst', hsc⟩
      simp [hs, hcom s hsc]

theorem TInv.step {t : Trace} {v : Vol} {f : Fifo} {U O : List Slot} {ids lost : List Nat}
    (h : Sim v f U O) (ht : TInv t f ids lost) (op : Op) :
    ∃ ids' lost', TInv (t.step op (v.step op).2) (f.step op).1 ids' lost' := by
  obtain ⟨U', O', h', ha⟩ := h.step op
  revert ha
  cases op with
  | reserve p size =>
    obtain ⟨h1, h2, h3, h4, h5, h5', h6, h7, h8, h9, h10, h11⟩ := ht
    simp only [Vol.step, Fifo.step, Out.agrees]
    intro ha
    rw [ha]
    unfold Fifo.reserve at *
    simp only
    by_cases c1 : (f.slots.any fun s => s.owner == p && !s.committed) = true
    · rw [if_pos c1]; exact ⟨ids, lost, h1, h2, h3, h4, h5, h5', h6, h7, h8, h9, h10, h11⟩
    rw [if_neg c1]
    by_cases c2 : f.locks > 0
    · rw [if_pos c2]; exact ⟨ids, lost, h1, h2, h3, h4, h5, h5', h6, h7, h8, h9, h10, h11⟩
    rw [if_neg c2]
    by_cases c3 : size = 0 ∨ size + headerBytes > f.len
    · rw [if_pos c3]; exact ⟨ids, lost, h1, h2, h3, h4, h5, h5', h6, h7, h8, h9, h10, h11⟩
    rw [if_neg c3]
    by_cases c4 : (f.slots.any fun s => f.inTheWay (size + headerBytes) s && f.pinned s) = true
    · rw [if_pos c4]; exact ⟨ids, lost, h1, h2, h3, h4, h5, h5', h6, h7, h8, h9, h10, h11⟩
    rw [if_neg c4]
    -- granted
    simp only [Trace.step, headerBytes] at *
    have c4 : ∀ s ∈ f.slots, f.inTheWay (size + 4) s = true → f.pinned s = false := by
      intro s hs hw
      have := c4
      simp only [List.any_eq_true, not_exists, not_and, Bool.and_eq_true] at this
      simpa using this s hs hw
    generalize hlost : f.slots.filter (f.inTheWay (size + 4)) = L
    have hLm : ∀ s ∈ L, s ∈ f.slots ∧ f.inTheWay (size + 4) s = true := by
      intro s hs; rw [← hlost] at hs; simpa using hs
    have hlt : ∀ s ∈ f.slots, s.id < t.grants.length := by
      intro s hs
      rw [← h1]
      exact h.idlt s (by rw [← h.slots]; exact hs)
    refine ⟨ids, lost ++ L.map (·.id), by simp [h1], ?_, ?_, h4, ?_, ?_, h6, ?_, ?_, ?_, ?_, by simp [h11]⟩
    · intro s hs
      rcases List.mem_append.1 hs with hs | hs
      · have hs := (List.mem_filter.1 hs).1
        rw [List.getElem?_append_left (hlt s hs)]
        exact h2 s hs
      · simp at hs
        subst hs
        simp [h1, Slot.grant]
    · rw [List.pairwise_append]
      refine ⟨h3.filter _, by simp, ?_⟩
      intro a ha b hb
      simp at hb
      subst hb
      have := hlt a (List.mem_filter.1 ha).1
      simp only; omega
    · intro i hi s hs
      rcases List.mem_append.1 hs with hs | hs
      · exact h5 i hi s (List.mem_filter.1 hs).1
      · simp at hs
        subst hs
        have : i ∈ List.range f.granted := h9.subset (by simp [hi])
        simpa using this
    · intro i hi s hs
      rcases List.mem_append.1 hs with hs | hs
      · rcases List.mem_append.1 hi with hi | hi
        · exact h5' i hi s (List.mem_filter.1 hs).1
        · -- survivors are younger than the lost
          obtain ⟨l, hl, rfl⟩ := List.mem_map.1 hi
          obtain ⟨hs1, hs2⟩ := List.mem_filter.1 hs
          obtain ⟨hl1, hl2⟩ := hLm l hl
          have hsorted := h.ids
          rw [h.slots] at hs1 hl1
          by_cases hlt' : l.id < s.id
          · exact hlt'
          · exfalso
            -- `s` is at or before `l` in the list
            have hne : s ≠ l := by rintro rfl; simp [hl2] at hs2
            obtain ⟨A, B, hAB⟩ := List.append_of_mem hs1
            rw [hAB] at hl1 hsorted
            rcases List.mem_append.1 hl1 with hl1 | hl1
            · exact hlt' ((List.pairwise_append.1 hsorted).2.2 l hl1 s (by simp))
            · rcases List.mem_cons.1 hl1 with rfl | hl1
              · exact hne rfl
              · have hs2' : f.inTheWay (size + 4) s = false := by simpa using hs2
                have := h.noneAfter (by omega) (A := A) (s := s) (B := B) hAB hs2' l hl1
                rw [hl2] at this; simp at this
      · simp at hs
        subst hs
        rcases List.mem_append.1 hi with hi | hi
        · have : i ∈ List.range f.granted := h9.subset (by simp [hi])
          simpa using this
        · obtain ⟨l, hl, rfl⟩ := List.mem_map.1 hi
          have := hlt l (hLm l hl).1
          simp only; omega
    · intro k i bs hk hd
      obtain ⟨x, hx, hc, hs⟩ := h7 k i bs hk hd
      refine ⟨x, ?_, hc, hs⟩
      rw [List.getElem?_append_left (List.getElem?_eq_some_iff.1 hx).1]; exact hx
    · intro i hi
      rcases List.mem_append.1 hi with hi | hi
      · obtain ⟨x, hx, hc⟩ := h8 i hi
        refine ⟨x, ?_, hc⟩
        rw [List.getElem?_append_left (List.getElem?_eq_some_iff.1 hx).1]; exact hx
      · obtain ⟨l, hl, rfl⟩ := List.mem_map.1 hi
        obtain ⟨hl1, hl2⟩ := hLm l hl
        refine ⟨l.grant, ?_, ?_⟩
        · rw [List.getElem?_append_left (hlt l hl1)]; exact h2 l hl1
        · have := c4 l hl1 hl2
          simp [Fifo.pinned] at this
          exact this.1
    · -- permutation
      have hp := (filter_split (f.inTheWay (size + 4)) f.slots).map (·.id)
      rw [List.map_append, hlost] at hp
      simp only [List.map_append, List.map_cons, List.map_nil]
      rw [List.range_succ]
      have e : ids ++ (lost ++ L.map (·.id)) ++
          ((f.slots.filter fun s => !f.inTheWay (size + 4) s).map (·.id) ++ [f.granted]) =
          (ids ++ lost ++ (L.map (·.id) ++
          ((f.slots.filter fun s => !f.inTheWay (size + 4) s).map (·.id)))) ++ [f.granted] := by
        simp [List.append_assoc]
      rw [e]
      apply List.Perm.append_right
      exact (List.Perm.append_left _ hp).trans h9
    · revert h10
      simp only
      cases t.reading with
      | none => exact id
      | some x =>
        obtain ⟨r, bs⟩ := x
        rintro ⟨hc, s, hs, hr, hst', hsc⟩
        refine ⟨hc, s, ?_, hr, hst', hsc⟩
        have hmem := List.mem_of_head? hs
        have hns : f.inTheWay (size + 4) s = false := by
          cases hw : f.inTheWay (size + 4) s with
          | false => rfl
          | true =>
            have := c4 s hmem hw
            simp [Fifo.pinned, Fifo.isRead, hc, hs] at this
        cases hsl : f.slots with
        | nil => rw [hsl] at hs; simp at hs
        | cons a l =>
          rw [hsl] at hs
          obtain rfl : a = s := by simpa using hs
          simp [hns]
  | write p off bytes =>
    simp only [Vol.step, Fifo.step, Out.agrees]
    intro ha
    rw [ha]
    unfold Fifo.write
    split
    · rename_i hw
      refine ⟨ids, lost, ht.map (fun s => if s.owner == p && !s.committed then s.store off bytes else s)
        (fun g => if g.openBy p then { g with data := overlay g.data off bytes } else g) ?_ ?_ ?_ ?_⟩
      · intro s
        by_cases hc : (s.owner == p && !s.committed) = true
        · have hc' : s.grant.openBy p = true := hc
          rw [if_pos hc, if_pos hc']; rfl
        · have hc' : ¬ s.grant.openBy p = true := hc
          rw [if_neg hc, if_neg hc']
      · intro s; split <;> rfl
      · intro s hs; simp [hs]
      · intro x hx; simp [Grant.openBy, hx]
    · exact ⟨ids, lost, ht⟩
  | commit p =>
    simp only [Vol.step, Fifo.step, Out.agrees]
    intro ha
    rw [ha]
    unfold Fifo.commit
    split
    · refine ⟨ids, lost, ht.map (fun s => if s.owner == p && !s.committed then { s with committed := true } else s)
        (fun g => if g.openBy p then { g with committed := true } else g) ?_ ?_ ?_ ?_⟩
      · intro s
        by_cases hc : (s.owner == p && !s.committed) = true
        · have hc' : s.grant.openBy p = true := hc
          rw [if_pos hc, if_pos hc']; rfl
        · have hc' : ¬ s.grant.openBy p = true := hc
          rw [if_neg hc, if_neg hc']
      · intro s; split <;> rfl
      · intro s hs; simp [hs]
      · intro x hx; simp [Grant.openBy, hx]
    · exact ⟨ids, lost, ht⟩
  | startRead b =>
    intro ha
    simp only [Vol.step, Fifo.step] at ha ⊢
    have ha' := ha
    unfold Fifo.startRead at ha ⊢
    cases hcs : f.consumer with
    | none =>
      rw [hcs] at ha
      simp only at ha ⊢
      cases hv : (v.startRead b).2 with
      | ok x => rw [hv] at ha; exact absurd ha (by simp [Out.agrees])
      | err e => exact ⟨ids, lost, ht⟩
      | blocked => exact ⟨ids, lost, ht⟩
    | some bb =>
      rw [hcs] at ha
      cases bb with
      | true =>
        simp only at ha ⊢
        cases hv : (v.startRead b).2 with
        | ok x => rw [hv] at ha; exact absurd ha (by simp [Out.agrees])
        | err e => exact ⟨ids, lost, ht⟩
        | blocked => exact ⟨ids, lost, ht⟩
      | false =>
        simp only at ha ⊢
        rw [h.visible] at ha ⊢
        cases hU : U with
        | nil =>
          subst hU
          simp only at ha ⊢
          cases hv : (v.startRead b).2 with
          | ok x =>
            rw [hv] at ha
            exfalso
            cases b
            · simp [Out.agrees] at ha
            · cases hsd : f.shutdown <;> simp [Out.agrees, hsd] at ha
          | err e => exact ⟨ids, lost, ht⟩
          | blocked => exact ⟨ids, lost, ht⟩
        | cons s U2 =>
          subst hU
          simp only at ha ⊢
          cases hv : (v.startRead b).2 with
          | ok x =>
            rw [hv] at ha
            obtain ⟨r, bs⟩ := x
            simp only [Out.agrees] at ha
            obtain ⟨h1, h2, h3, h4, h5, h5', h6, h7, h8, h9, h10, h11⟩ := ht
            refine ⟨ids, lost, h1, h2, h3, h4, h5, h5', h6, h7, h8, h9, ?_, h11⟩
            simp only [Trace.step]
            exact ⟨trivial, s, by rw [h.slots]; rfl, by simpa [headerBytes] using ha.1, ha.2,
              h.com s (by simp)⟩
          | err e => rw [hv] at ha; exact absurd ha (by simp [Out.agrees])
          | blocked => rw [hv] at ha; exact absurd ha (by simp [Out.agrees])
  | finishRead =>
    simp only [Vol.step, Fifo.step, Out.agrees]
    intro ha
    rw [ha]
    unfold Fifo.finishRead
    cases hcs : f.consumer with
    | none => exact ⟨ids, lost, ht⟩
    | some bb =>
      cases bb with
      | false => exact ⟨ids, lost, ht⟩
      | true =>
        obtain ⟨s, rest, hsl, hsc, hv⟩ := head_committed h hcs
        obtain ⟨h1, h2, h3, h4, h5, h5', h6, h7, h8, h9, h10, h11⟩ := ht
        cases hrd : t.reading with
        | none => rw [hrd] at h10; exact absurd hcs h10
        | some x =>
          obtain ⟨r, bs⟩ := x
          rw [hrd] at h10
          obtain ⟨_, s', hs', hr, hst', _⟩ := h10
          rw [hsl] at hs'
          obtain rfl : s = s' := by simpa using hs'
          rw [hsl] at h3 h9
          have h3' := List.pairwise_cons.1 h3
          refine ⟨ids ++ [s.id], lost, h1, ?_, ?_, ?_, ?_, ?_, ?_, ?_, h8, ?_, ?_, h11⟩
          · intro x hx
            exact h2 x (by rw [hsl] at hx ⊢; simp at hx; simp [hx])
          · simp only [hsl, List.tail_cons]; exact h3'.2
          · rw [List.pairwise_append]
            exact ⟨h4, by simp, by intro a ha b hb; simp at hb; subst hb; exact h5 a ha s (by simp [hsl])⟩
          · intro i hi x hx
            simp only [hsl, List.tail_cons] at hx
            rcases List.mem_append.1 hi with hi | hi
            · exact h5 i hi x (by simp [hsl, hx])
            · simp at hi; subst hi
              exact h3'.1 x hx
          · intro i hi x hx
            simp only [hsl, List.tail_cons] at hx
            exact h5' i hi x (by simp [hsl, hx])
          · simp [Trace.step, hrd, h6]
          · intro k i bs' hk hd
            simp only [Trace.step, hrd, Option.toList_some, List.map_cons, List.map_nil] at hd ⊢
            rcases Nat.lt_or_ge k ids.length with hlt | hge
            · rw [List.getElem?_append_left hlt] at hk
              rw [List.getElem?_append_left (by omega)] at hd
              exact h7 k i bs' hk hd
            · rw [List.getElem?_append_right hge] at hk
              rw [List.getElem?_append_right (by omega)] at hd
              rw [← h6] at hd
              cases hkk : k - ids.length with
              | zero =>
                rw [hkk] at hk hd
                simp at hk hd
                subst hk; subst hd
                exact ⟨s.grant, h2 s (by simp [hsl]), hsc, hst'⟩
              | succ n => rw [hkk] at hk; simp at hk
          · simp only [hsl, List.tail_cons]
            refine List.Perm.trans ?_ h9
            simp only [List.map_cons, List.append_assoc]
            refine List.Perm.append_left _ ?_
            exact (List.perm_middle (l₁ := lost)).symm
          · simp [Trace.step]
  | registerConsumer =>
    intro _
    refine ⟨ids, lost, ?_⟩
    obtain ⟨h1, h2, h3, h4, h5, h5', h6, h7, h8, h9, h10, h11⟩ := ht
    have e : t.step .registerConsumer (v.step .registerConsumer).2 = t := by
      simp only [Trace.step]
    rw [e]
    simp only [Fifo.step]
    cases hcs : f.consumer with
    | some bb => exact ⟨h1, h2, h3, h4, h5, h5', h6, h7, h8, h9, h10, h11⟩
    | none =>
      refine ⟨h1, h2, h3, h4, h5, h5', h6, h7, h8, h9, ?_, h11⟩
      cases hrd : t.reading with
      | none => simp
      | some x =>
        obtain ⟨r, bs⟩ := x
        rw [hrd] at h10
        rw [hcs] at h10; exact absurd h10.1 (by simp)
  | dropConsumer =>
    intro _
    obtain ⟨h1, h2, h3, h4, h5, h5', h6, h7, h8, h9, h10, h11⟩ := ht
    exact ⟨ids, lost, h1, h2, h3, h4, h5, h5', h6, h7, h8, h9, by simp [Trace.step, Fifo.step], h11⟩
  | waitForDrain =>
    intro _
    refine ⟨ids, lost, ?_⟩
    have e : t.step .waitForDrain (v.step .waitForDrain).2 = t := by
      simp only [Trace.step]
    rw [e]
    simp only [Fifo.step]
    obtain ⟨h1, h2, h3, h4, h5, h5', h6, h7, h8, h9, h10, h11⟩ := ht
    cases f.visible.getLast? with
    | none => exact ⟨h1, h2, h3, h4, h5, h5', h6, h7, h8, h9, h10, h11⟩
    | some s => exact ⟨h1, h2, h3, h4, h5, h5', h6, h7, h8, h9, h10, h11⟩
  | lock =>
    intro _
    obtain ⟨h1, h2, h3, h4, h5, h5', h6, h7, h8, h9, h10, h11⟩ := ht
    exact ⟨ids, lost, h1, h2, h3, h4, h5, h5', h6, h7, h8, h9, h10, h11⟩
  | unlock =>
    intro _
    obtain ⟨h1, h2, h3, h4, h5, h5', h6, h7, h8, h9, h10, h11⟩ := ht
    exact ⟨ids, lost, h1, h2, h3, h4, h5, h5', h6, h7, h8, h9, h10, h11⟩
  | shutdown =>
    intro _
    obtain ⟨h1, h2, h3, h4, h5, h5', h6, h7, h8, h9, h10, h11⟩ := ht
    simp only [Fifo.step]
    split
    · exact ⟨ids, lost, h1, h2, h3, h4, h5, h5', h6, h7, h8, h9, h10, h11⟩
    · exact ⟨ids, lost, h1, h2, h3, h4, h5, h5', h6, h7, h8, h9, h10, h11⟩

theorem TInv.run (ops : List Op) : ∀ {t : Trace} {v : Vol} {f : Fifo} {U O : List Slot}
    {ids lost : List Nat}, Sim v f U O → TInv t f ids lost →
    ∃ U' O' ids' lost', Sim (v.run ops).1 (f.run ops).1 U' O' ∧
      TInv (t.run ops (v.run ops).2) (f.run ops).1 ids' lost' := by
  induction ops with
  | nil => intro t v f U O ids lost h ht; exact ⟨U, O, ids, lost, h, ht⟩
  | cons op ops ih =>
    intro t v f U O ids lost h ht
    obtain ⟨ids1, lost1, ht1⟩ := ht.step h op
    obtain ⟨U1, O1, h1, _⟩ := h.step op
    exact ih h1 ht1

theorem run_inv (len : Nat) (mem : Mem) (hlen : len < 2 ^ 32) (ops : List Op) :
    ∃ U O ids lost, Sim ((Vol.new len mem).run ops).1 ((Fifo.new len).run ops).1 U O ∧
      TInv (history len mem ops) ((Fifo.new len).run ops).1 ids lost :=
  TInv.run ops (Sim.new len mem hlen) (TInv.new len)

/-! ### Draining a buffer -/

/-- Make every byte of every slot known. -/
def Slot.known (m : Mem) (s : Slot) : Slot := { s with data := (readMem m (s.start + 4) s.size).map some }

theorem Sim.known {v : Vol} {f : Fifo} {U O : List Slot} (h : Sim v f U O) :
    Sim v { f with slots := f.slots.map (Slot.known v.core.mem) }
      (U.map (Slot.known v.core.mem)) (O.map (Slot.known v.core.mem)) := by
  obtain ⟨h1, h2, h3, h4, h5, h6, h7, h8, h9, h10, h11, h12, h13, h14, h15, h16, h17, h18, h19,
        h20, h21, h22, h23⟩ := h
  have er : ∀ l : List Slot, (l.map (Slot.known v.core.mem)).map Slot.range = l.map Slot.range := by
    intro l; rw [List.map_map]; rfl
  refine ⟨by simp [h1], ?_, ?_, ?_, ?_, h6, h7, h8, h9, h10, h11, ?_, ?_, ?_, ?_, ?_, h17, h18, h19, h20,
        h21, ?_, ?_⟩
  · intro s hs
    obtain ⟨s, hs', rfl⟩ := List.mem_map.1 hs
    exact h2 s hs'
  · intro s hs
    rw [List.head?_map] at hs
    cases hO : O.head? with
    | none => rw [hO] at hs; simp at hs
    | some o => rw [hO] at hs; simp at hs; subst hs; exact h3 o hO
  · rw [h4, List.map_map]; rfl
  · rw [er, er]; exact h5
  · intro s hs
    rw [← List.map_append] at hs
    obtain ⟨s, hs', rfl⟩ := List.mem_map.1 hs
    refine ⟨(h12 s hs').1, by simp [Slot.known, readMem_length], ?_⟩
    intro i b hi
    simp [Slot.known] at hi
    have hlt : i < s.size := by
      rcases Nat.lt_or_ge i s.size with h | h
      · exact h
      · rw [List.getElem?_eq_none (by rw [readMem_length]; exact h)] at hi; simp at hi
    rw [readMem_getElem? _ _ _ _ hlt] at hi
    simpa [Slot.known] using hi
  · revert h13
    simp only
    cases f.consumer with
    | none => exact id
    | some bb =>
      cases bb with
      | false => exact id
      | true =>
        rintro ⟨s, hs, hv⟩
        exact ⟨s.known v.core.mem, by simp [hs], hv⟩
  · rw [← List.map_append, List.pairwise_map]
    exact h14
  · intro s hs
    rw [← List.map_append] at hs
    obtain ⟨s, hs', rfl⟩ := List.mem_map.1 hs
    exact h15 s hs'
  · rw [OwnersDistinct, ← List.map_append, List.pairwise_map]
    exact h16
  · simpa using h22
  · have : sumBytes (U.map (Slot.known v.core.mem)) = sumBytes U := by
      simp only [sumBytes, List.map_map]; rfl
    rw [this]; exact h23

/-- The bytes of a slot all of whose bytes are known. -/
def Slot.bytes (s : Slot) : List UInt8 := s.data.map (·.getD 0)

def Slot.AllKnown (s : Slot) : Prop := s.data = s.bytes.map some

theorem Slot.known_allKnown (m : Mem) (s : Slot) : (s.known m).AllKnown := by
  simp [Slot.AllKnown, Slot.known, Slot.bytes, Function.comp_def]

theorem bytesAgree_known {bs bs' : List UInt8} (h : bytesAgree bs (bs'.map some)) : bs = bs' := by
  have hl : bs.length = bs'.length := by simpa using h.1
  apply List.ext_getElem?
  intro i
  rcases Nat.lt_or_ge i bs'.length with hi | hi
  · have := h.2 i bs'[i] (by simp [hi])
    rw [this]; simp [hi]
  · rw [List.getElem?_eq_none hi, List.getElem?_eq_none (by omega)]

def Slot.asRead (s : Slot) : Range × List UInt8 := (⟨s.start + 4, s.size⟩, s.bytes)

theorem readAll_eq (n : Nat) : ∀ {v : Vol} {f : Fifo} {U O : List Slot}, Sim v f U O →
    f.consumer = some false → U.length ≤ n → (∀ s ∈ U, s.AllKnown) →
    readAll v n = U.map Slot.asRead := by
  induction n with
  | zero =>
    intro v f U O h _ hn _
    have : U = [] := by cases U with | nil => rfl | cons a l => simp at hn
    subst this; rfl
  | succ n ih =>
    intro v f U O h hc hn hk
    obtain ⟨U1, O1, h1, a1⟩ := h.startRead false
    have hfs : f.startRead false = (match U with
      | s :: _ => ({ f with consumer := some true }, .ok (⟨s.start + headerBytes, s.size⟩, s.data))
      | [] => (f, .err .unavailable)) := by
      unfold Fifo.startRead; rw [hc, h.visible]; cases U <;> rfl
    cases hU : U with
    | nil =>
      subst hU
      rw [hfs] at a1
      simp only [readAll]
      cases hv : v.startRead false with
      | mk v' r =>
        rw [hv] at a1
        cases r with
        | ok x => exact absurd a1 (by simp [Out.agrees])
        | err e => rfl
        | blocked => rfl
    | cons s U2 =>
      subst hU
      rw [hfs] at a1 h1
      simp only at a1 h1
      simp only [readAll]
      cases hv : v.startRead false with
      | mk v' r =>
        rw [hv] at a1 h1
        cases r with
        | err e => exact absurd a1 (by simp [Out.agrees])
        | blocked => exact absurd a1 (by simp [Out.agrees])
        | ok x =>
          obtain ⟨r, bs⟩ := x
          simp only [Out.agrees, headerBytes] at a1
          obtain ⟨e1, e2⟩ := a1
          rw [hk s (by simp)] at e2
          have e2 := bytesAgree_known e2
          simp only [List.map_cons]
          refine List.cons_eq_cons.2 ⟨by rw [e1, e2]; rfl, ?_⟩
          -- the slots are those of `f`
          have hsl : f.slots = s :: (U2 ++ O) := by simp [h.slots]
          have hsl1 := h1.slots
          simp only at hsl1
          have hvis := h1.visible
          have hvis' : Fifo.visible { f with consumer := some true } = s :: U2 := by
            have := h.visible; exact this
          rw [hvis'] at hvis
          subst hvis
          have hO : O1 = O := by
            rw [h.slots] at hsl1
            exact (List.append_cancel_left hsl1).symm
          subst hO
          obtain ⟨U3, O3, h3, a3⟩ := h1.finishRead
          have hff : (Fifo.finishRead { f with consumer := some true }).1.slots = U2 ++ O1 := by
            simp [Fifo.finishRead, hsl]
          have hU3 : U3 = U2 := by
            have e := h3.visible
            rw [Fifo.visible, hff, takeWhile_append (fun x hx => h.com x (by simp [hx])) h.unc] at e
            exact e.symm
          subst hU3
          exact ih h3 rfl (by simp at hn; omega) (fun x hx => hk x (by simp [hx]))

/-- `unread` returns exactly the visible slots. -/
theorem unread_eq {v : Vol} {f : Fifo} {U O : List Slot} (h : Sim v f U O)
    (hk : ∀ s ∈ U, s.AllKnown) : v.unread = U.map Slot.asRead := by
  obtain ⟨U1, O1, h1, _⟩ := Sim.run [.dropConsumer, .registerConsumer] h
  have e : (f.run [.dropConsumer, .registerConsumer]).1 = { f with consumer := some false } := rfl
  rw [e] at h1
  have hU : U1 = U := by
    have := h1.visible
    rw [← this]; exact h.visible
  subst hU
  refine readAll_eq _ h1 rfl ?_ hk
  have := layout_length h.inv.layout
  simp at this; omega

theorem unread_visible {v : Vol} {f : Fifo} {U O : List Slot} (h : Sim v f U O)
    (hk : ∀ s ∈ f.visible, s.AllKnown) : v.unread = f.visible.map Slot.asRead := by
  rw [h.visible] at hk ⊢
  exact unread_eq h hk

theorem unread_known {v : Vol} {f : Fifo} {U O : List Slot} (h : Sim v f U O) :
    v.unread = U.map (fun s => (⟨s.start + 4, s.size⟩, readMem v.core.mem (s.start + 4) s.size)) := by
  have := unread_eq h.known (fun s hs => by
    obtain ⟨s, _, rfl⟩ := List.mem_map.1 hs
    exact Slot.known_allKnown _ _)
  rw [this, List.map_map]
  apply List.map_congr_left
  intro s _
  simp [Slot.asRead, Slot.known, Slot.bytes, Function.comp_def]

theorem Fifo.step_len (f : Fifo) (op : Op) : (f.step op).1.len = f.len := by
  cases op with
  | reserve p size =>
    simp only [Fifo.step, Fifo.reserve]
    split
    · rfl
    split
    · rfl
    split
    · rfl
    split <;> rfl
  | write p off bytes => simp only [Fifo.step, Fifo.write]; split <;> rfl
  | commit p => simp only [Fifo.step, Fifo.commit]; split <;> rfl
  | registerConsumer => simp only [Fifo.step]; split <;> rfl
  | dropConsumer => rfl
  | startRead b =>
    simp only [Fifo.step, Fifo.startRead]
    split
    · rfl
    · rfl
    · split <;> rfl
  | finishRead => simp only [Fifo.step, Fifo.finishRead]; split <;> rfl
  | waitForDrain => simp only [Fifo.step]; split <;> rfl
  | lock => rfl
  | unlock => rfl
  | shutdown => simp only [Fifo.step]; split <;> rfl

theorem Fifo.run_len (ops : List Op) : ∀ (f : Fifo), (f.run ops).1.len = f.len := by
  induction ops with
  | nil => intro f; rfl
  | cons op ops ih => intro f; exact (ih _).trans (f.step_len op)

end Verif.Buffer
