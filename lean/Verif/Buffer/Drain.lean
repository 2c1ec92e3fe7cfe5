import Verif.Buffer.TraceLemmas

/-
`wait_for_drain` on the volatile ring buffer: when it returns, everything that was readable when it was
called has been read or overwritten.  Helper lemmas; the property is in `AggregateProps.lean`.
-/
namespace Verif.Buffer

/-- Reservation `m` and everything older has left the buffer. -/
def Gone (f : Fifo) (m : Nat) : Prop := ∀ s ∈ f.slots, m < s.id

/-- Someone waits for reservation `m` to leave the buffer. -/
structure Waits (f : Fifo) (m : Nat) : Prop where
  com : ∀ s ∈ f.slots, s.id ≤ m → s.committed = true
  lt : m < f.granted
  tgt : Gone f m ∨ (f.drain.isSome = true ∧ ∀ s ∈ f.slots, f.drain = some s.start → m ≤ s.id)

/-- Slots have different addresses. -/
theorem Sim.start_inj {v : Vol} {f : Fifo} {U O : List Slot} (h : Sim v f U O) {s s' : Slot}
    (hs : s ∈ f.slots) (hs' : s' ∈ f.slots) (he : s.start = s'.start) : s = s' := by
  have hp := h.inv.layout.pairwise
  rw [← List.map_append, ← h.slots, List.pairwise_map] at hp
  revert hs hs'
  generalize f.slots = l at hp
  induction l with
  | nil => simp
  | cons a l ih =>
    intro hs hs'
    have hp' := List.pairwise_cons.1 hp
    have key : ∀ x ∈ l, a.start ≠ x.start := by
      intro x hx hax
      have := hp'.1 x hx
      simp only [Disj, Range.stop, Slot.range] at this
      omega
    rcases List.mem_cons.1 hs with rfl | h1
    · rcases List.mem_cons.1 hs' with rfl | h2
      · rfl
      · exact absurd he (key _ h2)
    · rcases List.mem_cons.1 hs' with rfl | h2
      · exact absurd he.symm (key _ h1)
      · exact ih hp'.2 h1 h2

/-- A reservation is in the buffer or everything older than it, and itself, is gone. -/
theorem TInv.inOrGone {t : Trace} {f : Fifo} {ids lost : List Nat} (ht : TInv t f ids lost) {m : Nat}
    (hm : m < f.granted) : (∃ s ∈ f.slots, s.id = m) ∨ Gone f m := by
  have : m ∈ ids ++ lost ++ f.slots.map (·.id) := ht.perm.symm.subset (by simpa using hm)
  rcases List.mem_append.1 this with h | h
  · right
    intro s hs
    rcases List.mem_append.1 h with h | h
    · exact ht.before m h s hs
    · exact ht.lostBefore m h s hs
  · left
    obtain ⟨s, hs, he⟩ := List.mem_map.1 h
    exact ⟨s, hs, he⟩

theorem last_ge {l : List Slot} (hp : l.Pairwise (fun a b => a.id < b.id)) {s x : Slot} (hs : s ∈ l)
    (hx : l.getLast? = some x) : s.id ≤ x.id := by
  induction l with
  | nil => simp at hs
  | cons a l ih =>
    have hp' := List.pairwise_cons.1 hp
    cases l with
    | nil =>
      simp at hs hx; subst hs; subst hx; exact Nat.le_refl _
    | cons b l =>
      rw [List.getLast?_cons_cons] at hx
      rcases List.mem_cons.1 hs with rfl | h1
      · exact Nat.le_of_lt (hp'.1 x (List.mem_of_getLast? hx))
      · exact ih hp'.2 h1 hx

/-- A slot with only committed slots up to it is readable. -/
theorem mem_visible {l : List Slot} (hp : l.Pairwise (fun a b => a.id < b.id)) {s : Slot} (hs : s ∈ l)
    (hc : ∀ x ∈ l, x.id ≤ s.id → x.committed = true) : s ∈ l.takeWhile (·.committed) := by
  induction l with
  | nil => simp at hs
  | cons a l ih =>
    have hp' := List.pairwise_cons.1 hp
    have ha : a.committed = true := by
      rcases List.mem_cons.1 hs with rfl | h1
      · exact hc s (by simp) (Nat.le_refl _)
      · exact hc a (by simp) (Nat.le_of_lt (hp'.1 s h1))
    rw [List.takeWhile_cons, if_pos ha]
    rcases List.mem_cons.1 hs with rfl | h1
    · simp
    · exact List.mem_cons_of_mem _ (ih hp'.2 h1 (fun x hx => hc x (List.mem_cons_of_mem _ hx)))

/-- The call of `wait_for_drain`. -/
theorem wait_call {t : Trace} {v : Vol} {f : Fifo} {U O : List Slot} {ids lost : List Nat}
    (h : Sim v f U O) (ht : TInv t f ids lost) {m : Nat} (hm : m < f.granted)
    (hc : ∀ s ∈ f.slots, s.id ≤ m → s.committed = true) :
    Waits (f.step .waitForDrain).1 m ∧
    ((f.step .waitForDrain).2 = .drain false → Gone (f.step .waitForDrain).1 m) := by
  simp only [Fifo.step]
  rcases ht.inOrGone hm with ⟨s, hs, rfl⟩ | hg
  · have hv : s ∈ f.visible := mem_visible ht.sorted hs hc
    cases hx : f.visible.getLast? with
    | none =>
      rw [List.getLast?_eq_none_iff] at hx
      rw [hx] at hv; simp at hv
    | some x =>
      have hx' : x ∈ f.slots := List.takeWhile_sublist _ |>.subset (List.mem_of_getLast? hx)
      have hle : s.id ≤ x.id := last_ge (ht.sorted.sublist (List.takeWhile_sublist _)) hv hx
      refine ⟨⟨hc, hm, Or.inr ⟨rfl, ?_⟩⟩, by simp⟩
      intro y hy he
      simp only [Option.some.injEq] at he
      rw [← h.start_inj hx' hy he]
      exact hle
  · cases hx : f.visible.getLast? with
    | none => exact ⟨⟨hc, hm, Or.inl hg⟩, fun _ => hg⟩
    | some x => exact ⟨⟨hc, hm, Or.inl hg⟩, fun _ => hg⟩

/-- Updating slots without changing their number, order, identity or address. -/
theorem waits_map {f : Fifo} {m : Nat} (g : Slot → Slot) (hg : ∀ s, (g s).id = s.id ∧ (g s).start = s.start)
    (hgc : ∀ s, s.committed = true → (g s).committed = true) (hw : Waits f m) :
    Waits { f with slots := f.slots.map g } m ∧ (Gone f m → Gone { f with slots := f.slots.map g } m) := by
  have hgone : Gone f m → Gone { f with slots := f.slots.map g } m := by
    intro hgo s hs
    obtain ⟨s', hs', rfl⟩ := List.mem_map.1 hs
    rw [(hg s').1]; exact hgo s' hs'
  refine ⟨⟨?_, hw.lt, ?_⟩, hgone⟩
  · intro s hs hle
    obtain ⟨s', hs', rfl⟩ := List.mem_map.1 hs
    rw [(hg s').1] at hle
    exact hgc _ (hw.com s' hs' hle)
  · rcases hw.tgt with h | ⟨h1, h2⟩
    · exact Or.inl (hgone h)
    · right
      refine ⟨h1, ?_⟩
      intro s hs he
      obtain ⟨s', hs', rfl⟩ := List.mem_map.1 hs
      rw [(hg s').2] at he
      rw [(hg s').1]
      exact h2 s' hs' he

/-- One call while someone waits. -/
theorem Waits.step {t : Trace} {v : Vol} {f : Fifo} {U O : List Slot} {ids lost : List Nat}
    (h : Sim v f U O) (ht : TInv t f ids lost) {m : Nat} (hw : Waits f m) (op : Op) :
    Waits (f.step op).1 m ∧ (Gone f m → Gone (f.step op).1 m) ∧
    ((f.step op).2 = .finished (.ok true) → Gone (f.step op).1 m) := by
  cases op with
  | reserve p size =>
    refine (fun x : Waits (f.reserve p size).1 m ∧ (Gone f m → Gone (f.reserve p size).1 m) =>
      ⟨x.1, x.2, by simp [Fifo.step]⟩) ?_
    unfold Fifo.reserve
    simp only
    have triv : ∀ b, Waits (f.refuse b) m ∧ (Gone f m → Gone (f.refuse b) m) :=
      fun b => ⟨⟨hw.com, hw.lt, hw.tgt⟩, id⟩
    split
    · exact ⟨hw, id⟩
    split
    · exact triv _
    split
    · exact triv _
    split
    · exact triv _
    have hm : ∀ s ∈ f.slots.filter (fun s => !f.inTheWay (size + headerBytes) s) ++
        [({ id := f.granted, owner := p, start := f.place (size + headerBytes), size := size,
            data := List.replicate size none, committed := false } : Slot)],
        s ∈ f.slots ∨ s.id = f.granted := by
      intro s hs
      rcases List.mem_append.1 hs with hs | hs
      · exact Or.inl (List.mem_filter.1 hs).1
      · simp at hs; subst hs; exact Or.inr rfl
    have hlt := hw.lt
    have hgone : Gone f m → ∀ s ∈ f.slots.filter (fun s => !f.inTheWay (size + headerBytes) s) ++
        [({ id := f.granted, owner := p, start := f.place (size + headerBytes), size := size,
            data := List.replicate size none, committed := false } : Slot)], m < s.id := by
      intro hg s hs
      rcases hm s hs with h1 | h1
      · exact hg s h1
      · omega
    refine ⟨⟨?_, ?_, ?_⟩, hgone⟩
    · intro s hs hle
      rcases hm s hs with h1 | h1
      · exact hw.com s h1 hle
      · omega
    · show m < f.granted + 1
      omega
    · rcases hw.tgt with hg | ⟨h1, h2⟩
      · exact Or.inl (hgone hg)
      · right
        refine ⟨h1, ?_⟩
        intro s hs he
        rcases hm s hs with h3 | h3
        · exact h2 s h3 he
        · omega
  | write p off bytes =>
    refine (fun x : Waits (f.write p off bytes).1 m ∧ (Gone f m → Gone (f.write p off bytes).1 m) =>
      ⟨x.1, x.2, by simp [Fifo.step]⟩) ?_
    unfold Fifo.write
    split
    · apply waits_map _ _ _ hw
      · intro s; split <;> exact ⟨rfl, rfl⟩
      · intro s hs; split <;> exact hs
    · exact ⟨hw, id⟩
  | commit p =>
    refine (fun x : Waits (f.commit p).1 m ∧ (Gone f m → Gone (f.commit p).1 m) =>
      ⟨x.1, x.2, by simp [Fifo.step]⟩) ?_
    unfold Fifo.commit
    split
    · apply waits_map _ _ _ hw
      · intro s; split <;> exact ⟨rfl, rfl⟩
      · intro s hs; split
        · rfl
        · exact hs
    · exact ⟨hw, id⟩
  | registerConsumer =>
    simp only [Fifo.step]
    split
    · exact ⟨hw, id, by simp⟩
    · exact ⟨⟨hw.com, hw.lt, hw.tgt⟩, id, by simp⟩
  | dropConsumer => exact ⟨⟨hw.com, hw.lt, hw.tgt⟩, id, by simp [Fifo.step]⟩
  | startRead b =>
    refine (fun x : Waits (f.startRead b).1 m ∧ (Gone f m → Gone (f.startRead b).1 m) =>
      ⟨x.1, x.2, by simp [Fifo.step]⟩) ?_
    unfold Fifo.startRead
    split
    · exact ⟨hw, id⟩
    · exact ⟨hw, id⟩
    · split
      · exact ⟨⟨hw.com, hw.lt, hw.tgt⟩, id⟩
      · exact ⟨hw, id⟩
  | finishRead =>
    simp only [Fifo.step]
    unfold Fifo.finishRead
    split
    · exact ⟨hw, id, by simp⟩
    · exact ⟨hw, id, by simp⟩
    · simp only
      have htl : ∀ s ∈ f.slots.tail, s ∈ f.slots := fun s hs => List.mem_of_mem_tail hs
      have hgone : Gone f m → ∀ s ∈ f.slots.tail, m < s.id := fun hg s hs => hg s (htl s hs)
      cases hwk : (f.drain.isSome && f.drain == (f.slots.head?.map (·.start))) with
      | true =>
        have hG : ∀ s ∈ f.slots.tail, m < s.id := by
          rcases hw.tgt with hg | ⟨h1, h2⟩
          · exact hgone hg
          · cases hs : f.slots with
            | nil => simp
            | cons a l =>
              rw [hs] at hwk
              have hd : f.drain = some a.start := by simpa using (Bool.and_eq_true_iff.1 hwk).2
              have ha := h2 a (by rw [hs]; simp) hd
              have hp := ht.sorted
              rw [hs] at hp
              intro x hx
              have := (List.pairwise_cons.1 hp).1 x hx
              omega
        exact ⟨⟨fun s hs => hw.com s (htl s hs), hw.lt, Or.inl hG⟩, fun _ => hG, fun _ => hG⟩
      | false =>
        refine ⟨⟨fun s hs => hw.com s (htl s hs), hw.lt, ?_⟩, hgone, by simp⟩
        rcases hw.tgt with hg | ⟨h1, h2⟩
        · exact Or.inl (hgone hg)
        · exact Or.inr ⟨h1, fun s hs he => h2 s (htl s hs) he⟩
  | waitForDrain =>
    have := wait_call h ht hw.lt hw.com
    refine ⟨this.1, ?_, ?_⟩
    · simp only [Fifo.step]
      split <;> exact id
    · simp only [Fifo.step]
      split <;> simp
  | lock => exact ⟨⟨hw.com, hw.lt, hw.tgt⟩, id, by simp [Fifo.step]⟩
  | unlock => exact ⟨⟨hw.com, hw.lt, hw.tgt⟩, id, by simp [Fifo.step]⟩
  | shutdown =>
    simp only [Fifo.step]
    split
    · exact ⟨⟨hw.com, hw.lt, hw.tgt⟩, id, by simp⟩
    · exact ⟨⟨hw.com, hw.lt, hw.tgt⟩, id, by simp⟩

theorem agrees_finished {o : Out} {so : SOut} (h : o.agrees so) (ho : o = .finished (.ok true)) :
    so = .finished (.ok true) := by
  subst ho
  cases so with
  | finished r => simp only [Out.agrees] at h; rw [← h]
  | slice _ => exact h.elim
  | record _ => exact h.elim
  | unit _ => exact h.elim
  | drain _ => exact h.elim

theorem agrees_drain {o : Out} {so : SOut} (h : o.agrees so) (ho : o = .drain false) :
    so = .drain false := by
  subst ho
  cases so with
  | drain r => simp only [Out.agrees] at h; rw [← h]
  | slice _ => exact h.elim
  | record _ => exact h.elim
  | unit _ => exact h.elim
  | finished _ => exact h.elim

/-- Calls while someone waits. -/
theorem waits_run (ops : List Op) : ∀ {t : Trace} {v : Vol} {f : Fifo} {U O : List Slot}
    {ids lost : List Nat} {m : Nat}, Sim v f U O → TInv t f ids lost → Waits f m →
    (Gone f m ∨ Out.finished (.ok true) ∈ (v.run ops).2) →
    ∃ U' O' ids' lost', Sim (v.run ops).1 (f.run ops).1 U' O' ∧
      TInv (t.run ops (v.run ops).2) (f.run ops).1 ids' lost' ∧ Gone (f.run ops).1 m := by
  induction ops with
  | nil =>
    intro t v f U O ids lost m h ht hw hg
    refine ⟨U, O, ids, lost, h, ht, ?_⟩
    rcases hg with hg | hg
    · exact hg
    · simp [Vol.run] at hg
  | cons op ops ih =>
    intro t v f U O ids lost m h ht hw hg
    obtain ⟨ids1, lost1, ht1⟩ := ht.step h op
    obtain ⟨U1, O1, h1, ha⟩ := h.step op
    obtain ⟨hw1, hg1, hf1⟩ := hw.step h ht op
    refine ih h1 ht1 hw1 ?_
    rcases hg with hg | hg
    · exact Or.inl (hg1 hg)
    · have e : (v.run (op :: ops)).2 = (v.step op).2 :: ((v.step op).1.run ops).2 := rfl
      rw [e] at hg
      rcases List.mem_cons.1 hg with hg | hg
      · exact Or.inl (hf1 (agrees_finished ha hg.symm))
      · exact Or.inr hg

theorem trace_run_append (ops ops' : List Op) : ∀ (t : Trace) (v : Vol),
    t.run (ops ++ ops') (v.run (ops ++ ops')).2 =
      (t.run ops (v.run ops).2).run ops' ((v.run ops).1.run ops').2 := by
  induction ops with
  | nil => intro t v; rfl
  | cons op ops ih => intro t v; exact ih _ _

theorem vol_run_append (ops ops' : List Op) : ∀ (v : Vol),
    v.run (ops ++ ops') = (((v.run ops).1.run ops').1, (v.run ops).2 ++ ((v.run ops).1.run ops').2) := by
  induction ops with
  | nil => intro v; rfl
  | cons op ops ih =>
    intro v
    have := ih (v.step op).1
    show (((v.step op).1.run (ops ++ ops')).1, (v.step op).2 :: ((v.step op).1.run (ops ++ ops')).2) = _
    rw [this]
    rfl

theorem fifo_run_append (ops ops' : List Op) : ∀ (f : Fifo),
    (f.run (ops ++ ops')).1 = ((f.run ops).1.run ops').1 := by
  induction ops with
  | nil => intro f; rfl
  | cons op ops ih => intro f; exact ih _

/-- The flush returned: it did not have to wait, or a later `finish_read` woke it. -/
def flushReturned (v : Vol) (ops : List Op) : Prop :=
  (v.step .waitForDrain).2 = .drain false ∨
  Out.finished (.ok true) ∈ ((v.step .waitForDrain).1.run ops).2

/-- When a flush has returned, what was readable when it was called is gone. -/
theorem flush_gone (len : Nat) (mem : Mem) (hlen : len < 2 ^ 32) (ops ops' : List Op)
    (hr : flushReturned ((Vol.new len mem).run ops).1 ops') (m : Nat)
    (hm : m < (history len mem ops).grants.length)
    (hc : ∀ (j : Nat) (g : Grant), j ≤ m → (history len mem ops).grants[j]? = some g → g.committed = true) :
    ∃ U O ids lost,
      Sim ((Vol.new len mem).run (ops ++ .waitForDrain :: ops')).1
        ((Fifo.new len).run (ops ++ .waitForDrain :: ops')).1 U O ∧
      TInv (history len mem (ops ++ .waitForDrain :: ops'))
        ((Fifo.new len).run (ops ++ .waitForDrain :: ops')).1 ids lost ∧
      Gone ((Fifo.new len).run (ops ++ .waitForDrain :: ops')).1 m := by
  obtain ⟨U, O, ids, lost, h, ht⟩ := run_inv len mem hlen ops
  have hw := wait_call (m := m) h ht (by rw [ht.granted]; exact hm) (by
    intro s hs hle
    exact hc s.id s.grant hle (ht.slots s hs))
  obtain ⟨ids1, lost1, ht1⟩ := ht.step h .waitForDrain
  obtain ⟨U1, O1, h1, ha⟩ := h.step .waitForDrain
  obtain ⟨U2, O2, ids2, lost2, h2, ht2, hg⟩ := waits_run ops' h1 ht1 hw.1 (by
    rcases hr with hr | hr
    · exact Or.inl (hw.2 (agrees_drain ha hr))
    · exact Or.inr hr)
  refine ⟨U2, O2, ids2, lost2, ?_, ?_, ?_⟩
  · rw [vol_run_append, fifo_run_append]; exact h2
  · unfold history
    rw [trace_run_append, fifo_run_append]; exact ht2
  · rw [fifo_run_append]; exact hg

end Verif.Buffer
