import Verif.Buffer.Sim

/-
Every API call of the volatile ring buffer preserves the simulation.  Helper lemmas only.
-/
namespace Verif.Buffer

theorem Sim.reserve' {v : Vol} {f : Fifo} {U O : List Slot} (h : Sim v f U O) (p size : Nat) :
    ∃ U' O', Sim (v.reserve p size).1 (f.reserve p size).1 U' O' ∧
      (v.reserve p size).2 = (f.reserve p size).2 ∧
      ((∃ r, (v.reserve p size).2 = .ok r) ∨ (v.reserve p size).1 =
        { v with core := { v.core with stats := (v.reserve p size).1.core.stats } }) := by
  unfold Vol.reserve Fifo.reserve
  simp only [headerBytes]
  rw [h.holds p]
  by_cases hh : f.slots.any (fun s => s.owner == p && !s.committed) = true
  · rw [if_pos hh, if_pos hh]
    exact ⟨U, O, h, rfl, Or.inr rfl⟩
  rw [if_neg hh, if_neg hh]
  have hh : f.slots.any (fun s => s.owner == p && !s.committed) = false := by simpa using hh
  by_cases hl : f.locks > 0
  · have e : v.core.startReserve size = (v.core.refused size, .error .failedPrecondition) := by
      simp [Core.startReserve, h.locks, hl]
    simp only [e, hl, if_true]
    exact ⟨U, O, h.refuse size _ rfl, by trivial, Or.inr (by trivial)⟩
  simp only [hl, if_false]
  have hl0 : ¬ v.core.lockCount > 0 := by rw [h.locks]; exact hl
  by_cases hs : size = 0 ∨ size + 4 > f.len
  · have e : v.core.startReserve size =
        ({ v.core with stats := { v.core.stats with recordsRefused := v.core.stats.recordsRefused + 1 } },
          .error .invalidArgument) := by
      have : size + v.core.xb ≥ 2 ^ 32 ∨ size = 0 ∨ size + v.core.xb > v.core.len := by
        rw [h.xb, h.len]; exact Or.inr hs
      simp only [Core.startReserve, hl0, if_false, h.inv.pend, Bool.false_eq_true, if_pos this]
    simp only [e, hs, if_true]
    exact ⟨U, O, h.refuse 0 _ rfl, by trivial, Or.inr (by trivial)⟩
  have h32 := h.inv.len32
  rw [h.len] at h32
  have e : v.core.startReserve size = (v.core, .ok (size + v.core.xb)) := by
    have : ¬ (size + v.core.xb ≥ 2 ^ 32 ∨ size = 0 ∨ size + v.core.xb > v.core.len) := by
      rw [h.xb, h.len]; omega
    simp only [Core.startReserve, hl0, if_false, h.inv.pend, Bool.false_eq_true, if_neg this]
  simp only [e, hs, if_false]
  have h0 : 0 < size := by omega
  have hn : size + 4 ≤ f.len := by omega
  -- the two intersection checks of the code
  by_cases hc1 : v.readHit v.core (v.core.calcNextWriteStart (size + v.core.xb)) = true
  · rw [if_pos hc1]
    unfold Vol.readHit at hc1
    have hcs := h.cons
    revert hcs
    cases hfc : f.consumer with
    | none => intro hv; rw [hv] at hc1; simp at hc1
    | some b =>
      cases b with
      | false => intro hv; simp only at hv; rw [hv] at hc1; simp at hc1
      | true =>
        rintro ⟨s, hs1, hv⟩
        rw [hv] at hc1
        simp only at hc1
        have hsm : s ∈ U ++ O := List.mem_append_left _ (List.mem_of_head? hs1)
        rw [h.xb, h.intersect hsm (by omega) hn] at hc1
        have hany : f.slots.any (fun s => f.inTheWay (size + 4) s && f.pinned s) = true := by
          rw [List.any_eq_true]
          refine ⟨s, by rw [h.slots]; exact hsm, ?_⟩
          have : f.slots.head? = some s := by
            rw [h.slots]
            cases U with
            | nil => simp at hs1
            | cons u U => simpa using hs1
          simp [hc1, Fifo.pinned, Fifo.isRead, hfc, this]
        simp only [hany, if_true]
        exact ⟨U, O, h.refuse size _ rfl, by trivial, Or.inr (by trivial)⟩
  rw [if_neg hc1]
  unfold Vol.readHit at hc1
  by_cases hc2 : v.writeHit v.core (v.core.calcNextWriteStart (size + v.core.xb)) = true
  · rw [if_pos hc2]
    unfold Vol.writeHit at hc2
    rw [h.resv, List.head?_map] at hc2
    cases hO : O.head? with
    | none => rw [hO] at hc2; simp at hc2
    | some o =>
      rw [hO] at hc2
      simp only [Option.map_some] at hc2
      have hom : o ∈ U ++ O := List.mem_append_right _ (List.mem_of_head? hO)
      have hc2' : v.core.intersectReservation (v.core.calcNextWriteStart (size + v.core.xb)) o.range
          = true := hc2
      rw [h.xb, h.intersect hom (by omega) hn] at hc2'
      have hany : f.slots.any (fun s => f.inTheWay (size + 4) s && f.pinned s) = true := by
        rw [List.any_eq_true]
        refine ⟨o, by rw [h.slots]; exact hom, ?_⟩
        simp [hc2', Fifo.pinned, h.unc o hO]
      simp only [hany, if_true]
      exact ⟨U, O, h.refuse size _ rfl, by trivial, Or.inr (by trivial)⟩
  rw [if_neg hc2]
  unfold Vol.writeHit at hc2
  -- granted
  have hcons : ∀ s, f.consumer = some true → U.head? = some s → f.inTheWay (size + 4) s = false := by
    intro s hfc hs1
    have hcs := h.cons
    rw [hfc] at hcs
    obtain ⟨s', hs1', hv⟩ := hcs
    rw [hs1] at hs1'
    obtain rfl : s = s' := by simpa using hs1'
    rw [hv] at hc1
    simp only at hc1
    have hsm : s ∈ U ++ O := List.mem_append_left _ (List.mem_of_head? hs1)
    rw [h.xb, h.intersect hsm (by omega) hn] at hc1
    simpa using hc1
  have hO : ∀ o, O.head? = some o → f.inTheWay (size + 4) o = false := by
    intro o ho
    rw [h.resv, List.head?_map, ho] at hc2
    simp only [Option.map_some] at hc2
    have hom : o ∈ U ++ O := List.mem_append_right _ (List.mem_of_head? ho)
    have hc2' : ¬ v.core.intersectReservation (v.core.calcNextWriteStart (size + v.core.xb)) o.range
        = true := hc2
    rw [h.xb, h.intersect hom (by omega) hn] at hc2'
    simpa using hc2'
  obtain ⟨V, K, c', e1, e2, e3, e4, e5, e6⟩ :=
    h.reserveOk p size hh h0 hn hcons hO (v.hasRead || v.hasWrite)
  simp only [e2, e5, e4, Bool.false_eq_true, if_false]
  refine ⟨K, O ++ [⟨f.granted, p, f.place (size + 4), size, List.replicate size none, false⟩],
    ?_, ?_, Or.inl ⟨_, rfl⟩⟩
  · have hr : (v.core.calcNextWriteStart (size + v.core.xb)).range = ⟨f.place (size + 4), size + 4⟩ := by
      rw [calc_range, placeOf, Fifo.place, h.len, h.nws, h.xb]
    rw [hr]
    exact e6
  · have hr : (v.core.calcNextWriteStart (size + v.core.xb)).range = ⟨f.place (size + 4), size + 4⟩ := by
      rw [calc_range, placeOf, Fifo.place, h.len, h.nws, h.xb]
    simp [hr, e3]

theorem Sim.reserve {v : Vol} {f : Fifo} {U O : List Slot} (h : Sim v f U O) (p size : Nat) :
    ∃ U' O', Sim (v.reserve p size).1 (f.reserve p size).1 U' O' ∧
      (v.reserve p size).2 = (f.reserve p size).2 := by
  obtain ⟨U', O', h1, h2, _⟩ := h.reserve' p size
  exact ⟨U', O', h1, h2⟩

/-! ### Writing into a slot -/

theorem store_getElem? (s : Slot) (off : Nat) (bytes : List UInt8)
    (h : off + bytes.length ≤ s.data.length) (i : Nat) :
    (s.store off bytes).data[i]? =
      if off ≤ i ∧ i < off + bytes.length then (bytes[i - off]?).map some else s.data[i]? := by
  simp only [Slot.store]
  by_cases h1 : i < off
  · rw [if_neg (by omega), List.append_assoc, List.getElem?_append_left (by simp; omega)]
    simp [h1]
  · by_cases h2 : i < off + bytes.length
    · rw [if_pos (by omega), List.append_assoc, List.getElem?_append_right (by simp; omega),
        List.getElem?_append_left (by simp; omega)]
      simp
      congr 1
      congr 1
      omega
    · rw [if_neg (by omega), List.getElem?_append_right (by simp; omega)]
      simp
      congr 1
      omega

/-- At most one uncommitted slot per owner. -/
theorem OwnersDistinct.unique {l : List Slot} (h : OwnersDistinct l) {s t : Slot} (hs : s ∈ l)
    (ht : t ∈ l) (hsc : s.committed = false) (htc : t.committed = false) (ho : s.owner = t.owner) :
    s = t := by
  induction l with
  | nil => simp at hs
  | cons a l ih =>
    have hp := List.pairwise_cons.1 h
    rcases List.mem_cons.1 hs with rfl | hs
    · rcases List.mem_cons.1 ht with rfl | ht
      · rfl
      · exact absurd ho (hp.1 t ht hsc htc)
    · rcases List.mem_cons.1 ht with rfl | ht
      · exact absurd ho.symm (hp.1 s (by assumption) htc hsc)
      · exact ih hp.2 (by assumption) ht

theorem Sim.write {v : Vol} {f : Fifo} {U O : List Slot} (h : Sim v f U O) (p off : Nat)
    (bytes : List UInt8) :
    ∃ U' O', Sim (v.write p off bytes).1 (f.write p off bytes).1 U' O' ∧
      (v.write p off bytes).2 = (f.write p off bytes).2 := by
  unfold Vol.write Fifo.write
  cases hfind : v.resv.find? (fun r => r.owner == p && !r.committed) with
  | none =>
    have hany : f.slots.any (fun s => s.owner == p && !s.committed
        && decide (off + bytes.length ≤ s.size)) = false := by
      rw [List.any_eq_false]
      intro s hs hc
      simp at hc
      rw [h.slots] at hs
      rcases List.mem_append.1 hs with hs | hs
      · rw [h.com s hs] at hc; simp at hc
      · rw [List.find?_eq_none] at hfind
        have := hfind s.resv (by rw [h.resv]; exact List.mem_map_of_mem hs)
        simp [Slot.resv, hc] at this
    simp only [hany]
    exact ⟨U, O, h, rfl⟩
  | some r =>
    have hrm := List.mem_of_find?_eq_some hfind
    have hrp := List.find?_some hfind
    simp at hrp
    rw [h.resv] at hrm
    obtain ⟨s, hsO, rfl⟩ := List.mem_map.1 hrm
    have hsown : s.owner = p := hrp.1
    have hsc : s.committed = false := hrp.2
    have hsm : s ∈ U ++ O := List.mem_append_right _ hsO
    have hrsz : s.resv.range.size - v.core.xb = s.size := by
      simp [Slot.resv, Slot.range, h.xb]
    have hrst : s.resv.range.start = s.start := rfl
    simp only [hrsz, hrst]
    by_cases hb : off + bytes.length ≤ s.size
    · have hany : f.slots.any (fun s => s.owner == p && !s.committed
          && decide (off + bytes.length ≤ s.size)) = true := by
        rw [List.any_eq_true]
        exact ⟨s, by rw [h.slots]; exact hsm, by simp [hsown, hsc, hb]⟩
      simp only [hany, if_true, hb]
      -- map over the slots
      let g : Slot → Slot := fun t => if t.owner == p && !t.committed then t.store off bytes else t
      have hgr : ∀ t, (g t).range = t.range := by
        intro t; simp only [g]; split <;> rfl
      have hgresv : ∀ t, (g t).resv = t.resv := by
        intro t; simp only [g]; split <;> rfl
      have hgc : ∀ t, (g t).committed = t.committed := by
        intro t; simp only [g]; split <;> rfl
      have hgid : ∀ t, (g t).id = t.id := by
        intro t; simp only [g]; split <;> rfl
      have hgo : ∀ t, (g t).owner = t.owner := by
        intro t; simp only [g]; split <;> rfl
      have hgs : ∀ t, (g t).size = t.size := by
        intro t; simp only [g]; split <;> rfl
      have hgU : U.map g = U := by
        conv => rhs; rw [← List.map_id U]
        apply List.map_congr_left
        intro t ht
        simp [g, h.com t ht]
      refine ⟨U, O.map g, ?_, by simp⟩
      obtain ⟨h1, h2, h3, h4, h5, h6, h7, h8, h9, h10, h11, h12, h13, h14, h15, h16, h17, h18, h19,
        h20, h21, h22, h23⟩ := h
      -- bytes outside the slot of `p` are unchanged
      have hout : ∀ i, (i < s.start + 4 ∨ s.range.stop ≤ i) →
          writeMem v.core.mem (s.start + v.core.xb + off) bytes i = v.core.mem i := by
        intro i hi
        apply writeMem_out
        rw [h7]
        simp only [Range.stop, Slot.range] at hi
        omega
      have hdisj : ∀ t ∈ U ++ O, t ≠ s → Disj s.range t.range := by
        intro t ht hne
        have hp := h5.layout.pairwise
        rw [← List.map_append] at hp
        rw [List.pairwise_map] at hp
        have : ∀ {l : List Slot}, l.Pairwise (fun a b => Disj a.range b.range) → s ∈ l → t ∈ l →
            Disj s.range t.range := by
          intro l hl
          induction l with
          | nil => simp
          | cons a l ih =>
            intro hs' ht'
            have hp' := List.pairwise_cons.1 hl
            rcases List.mem_cons.1 hs' with rfl | hs'
            · rcases List.mem_cons.1 ht' with rfl | ht'
              · exact absurd rfl hne
              · exact hp'.1 t ht'
            · rcases List.mem_cons.1 ht' with rfl | ht'
              · exact (hp'.1 s (by assumption)).symm
              · exact ih hp'.2 (by assumption) ht'
        exact this hp hsm ht
      refine ⟨?_, h2, ?_, ?_, ?_, h6, h7, h8, h9, h10, h11, ?_, h13, ?_, ?_, ?_, h17, h18, h19, h20,
        h21, h22, h23⟩
      · simp only [h1, List.map_append]
        congr 1
      · intro o ho
        rw [List.head?_map] at ho
        cases hO : O.head? with
        | none => rw [hO] at ho; simp at ho
        | some o' =>
          rw [hO] at ho
          simp at ho
          rw [← ho, hgc]
          exact h3 o' hO
      · simp only [h4, List.map_map]
        apply List.map_congr_left
        intro t _
        exact (hgresv t).symm
      · obtain ⟨g1, g2, g3, g4, g5, g6, g7, g8⟩ := h5
        have e : (O.map g).map Slot.range = O.map Slot.range := by
          rw [List.map_map]
          apply List.map_congr_left
          intro t _
          exact hgr t
        rw [e]
        refine ⟨g1, g2, g3, g4, g5, fun r hr => ?_, g7, g8⟩
        refine ⟨(g6 r hr).1, ?_⟩
        rw [← (g6 r hr).2]
        congr 2
        apply readMem_congr
        intro i hi
        have hr' := hr
        rw [← List.map_append] at hr'
        obtain ⟨t, ht, rfl⟩ := List.mem_map.1 hr'
        apply hout
        have hlt := (g6 _ hr).1
        by_cases hts : t = s
        · subst hts
          left
          simp only [h7, Slot.range] at hi ⊢; omega
        · have hd := hdisj t ht hts
          simp only [Disj, Range.stop, h7] at hd hlt ⊢
          have : s.range.start = s.start := rfl
          omega
      · intro t ht
        rw [List.mem_append] at ht
        rcases ht with ht | ht
        · have hne : t ≠ s := by
            rintro rfl
            have := h2 t ht
            rw [hsc] at this; simp at this
          refine (h12 t (List.mem_append_left _ ht)).congr (fun i hi1 hi2 => ?_)
          have hd := hdisj t (List.mem_append_left _ ht) hne
          refine (hout i ?_).symm
          have : s.range.start = s.start := rfl
          have : t.range.start = t.start := rfl
          simp only [Disj, Range.stop] at hd hi2 ⊢
          omega
        · obtain ⟨t, htO, rfl⟩ := List.mem_map.1 ht
          have htm : t ∈ U ++ O := List.mem_append_right _ htO
          by_cases hts : t = s
          · subst hts
            have hm := h12 t htm
            have hg : g t = t.store off bytes := by simp [g, hsown, hsc]
            rw [hg]
            refine ⟨hm.1, ?_, ?_⟩
            · have := hm.2.1
              simp [Slot.store, this]; omega
            · intro i b hi
              rw [store_getElem? t off bytes (by rw [hm.2.1]; exact hb)] at hi
              split at hi
              · rename_i hi'
                have hlt : i - off < bytes.length := by omega
                simp [hlt] at hi
                have := writeMem_in v.core.mem (t.start + v.core.xb + off) bytes (i - off) hlt
                rw [← hi, ← this]
                simp only [Slot.store]
                congr 1
                rw [h7]; omega
              · rename_i hi'
                have := hm.2.2 i b hi
                simp only [Slot.store]
                rw [← this]
                apply writeMem_out
                rw [h7]; omega
          · have hg : g t = t := by
              have : ¬ (t.owner = p ∧ t.committed = false) := by
                rintro ⟨ho, hc⟩
                exact hts (h16.unique htm hsm hc hsc (by rw [ho, hsown]))
              simp only [g]
              rw [if_neg]
              simpa using this
            rw [hg]
            refine (h12 t htm).congr (fun i hi1 hi2 => ?_)
            have hd := hdisj t htm hts
            refine (hout i ?_).symm
            have : s.range.start = s.start := rfl
            have : t.range.start = t.start := rfl
            simp only [Disj, Range.stop] at hd hi2 ⊢
            omega
      · have e : U ++ O.map g = (U ++ O).map g := by rw [List.map_append, hgU]
        rw [e, List.pairwise_map]
        exact h14.imp (by intro a b hab; rw [hgid, hgid]; exact hab)
      · intro t ht
        have e : U ++ O.map g = (U ++ O).map g := by rw [List.map_append, hgU]
        rw [e] at ht
        obtain ⟨t', ht', rfl⟩ := List.mem_map.1 ht
        rw [hgid]; exact h15 t' ht'
      · have e : U ++ O.map g = (U ++ O).map g := by rw [List.map_append, hgU]
        rw [e, OwnersDistinct, List.pairwise_map]
        exact h16.imp (by intro a b hab; rw [hgc, hgc, hgo, hgo]; exact hab)
    · have hany : f.slots.any (fun s => s.owner == p && !s.committed
          && decide (off + bytes.length ≤ s.size)) = false := by
        rw [List.any_eq_false]
        intro t ht hc
        simp at hc
        rw [h.slots] at ht
        have : t = s := h.owners.unique ht hsm hc.1.2 hsc (by rw [hc.1.1, hsown])
        subst this
        omega
      rw [if_neg hb, if_neg (by simp [hany])]
      exact ⟨U, O, h, rfl⟩

/-! ### Commit -/

theorem popCommitted_spec (O : List Slot) :
    ∀ (c : Core) (U : List Slot), CoreInv c (U.map Slot.range) (O.map Slot.range) → c.xb = 4 →
    ∃ A B c', O = A ++ B ∧ (∀ s ∈ A, s.committed = true) ∧
      (∀ o, B.head? = some o → o.committed = false) ∧
      popCommitted c (O.map Slot.resv) = (c', B.map Slot.resv) ∧
      CoreInv c' ((U ++ A).map Slot.range) (B.map Slot.range) ∧
      ∃ w n nc tb, c' = { c with
        cws := w, nrs := n, ncrs := nc
        stats := { c.stats with
          totalBytesWritten := tb
          recordsWritten := c.stats.recordsWritten + A.length
          bytesWritten := c.stats.bytesWritten + sumBytes A } } := by
  induction O with
  | nil =>
    intro c U h _
    exact ⟨[], [], c, rfl, by simp, by simp, rfl, by simpa using h, c.cws, c.nrs, c.ncrs,
      c.stats.totalBytesWritten, rfl⟩
  | cons o O ih =>
    intro c U h hxb
    by_cases ho : o.committed = true
    · have h' : CoreInv (c.advanceCommitted o.range) ((U ++ [o]).map Slot.range) (O.map Slot.range) := by
        simpa using h.advanceCommitted
      obtain ⟨A, B, c', e1, e2, e3, e4, e5, w, n, nc, tb, e6⟩ := ih _ (U ++ [o]) h' hxb
      refine ⟨o :: A, B, c', by simp [e1], ?_, e3, ?_, by simpa using e5, w, n, nc, tb, ?_⟩
      · intro s hs
        rcases List.mem_cons.1 hs with rfl | hs
        · exact ho
        · exact e2 s hs
      · rw [← e4]
        simp [popCommitted, Slot.resv, ho]
      · rw [e6]
        simp [Core.advanceCommitted, sumBytes, Slot.range, hxb]
        omega
    · refine ⟨[], o :: O, c, rfl, by simp, ?_, ?_, by simpa using h, c.cws, c.nrs, c.ncrs,
        c.stats.totalBytesWritten, rfl⟩
      · intro x hx; simp at hx; subst hx; simpa using ho
      · simp [popCommitted, Slot.resv, ho]

theorem Sim.commit {v : Vol} {f : Fifo} {U O : List Slot} (h : Sim v f U O) (p : Nat) :
    ∃ U' O', Sim (v.commit p).1 (f.commit p).1 U' O' ∧ (v.commit p).2 = (f.commit p).2 := by
  unfold Vol.commit Fifo.commit
  rw [h.holds p]
  by_cases hh : f.slots.any (fun s => s.owner == p && !s.committed) = true
  · simp only [hh, Bool.not_true, Bool.false_eq_true, if_false, if_true]
    let g : Slot → Slot := fun t => if t.owner == p && !t.committed then { t with committed := true } else t
    have hgr : ∀ t, (g t).range = t.range := by
      intro t; simp only [g]; split <;> rfl
    have hgid : ∀ t, (g t).id = t.id := by
      intro t; simp only [g]; split <;> rfl
    have hgo : ∀ t, (g t).owner = t.owner := by
      intro t; simp only [g]; split <;> rfl
    have hgs : ∀ t, (g t).size = t.size := by
      intro t; simp only [g]; split <;> rfl
    have hgmem : ∀ m t, SlotMem m t → SlotMem m (g t) := by
      intro m t ht; simp only [g]; split
      · exact ht
      · exact ht
    have hgc : ∀ t, (g t).committed = false → t.committed = false := by
      intro t; simp only [g]; split
      · simp
      · exact id
    have hgU : U.map g = U := by
      conv => rhs; rw [← List.map_id U]
      apply List.map_congr_left
      intro t ht
      simp [g, h.com t ht]
    have hmark : markCommitted p v.resv = (O.map g).map Slot.resv := by
      rw [h.resv, markCommitted, List.map_map, List.map_map]
      apply List.map_congr_left
      intro t _
      simp only [Function.comp, g]
      by_cases hc : (t.owner == p && !t.committed) = true
      · have hc' : (t.resv.owner == p && !t.resv.committed) = true := hc
        rw [if_pos hc', if_pos hc]; rfl
      · have hc' : ¬ (t.resv.owner == p && !t.resv.committed) = true := hc
        rw [if_neg hc', if_neg hc]
    have hinv : CoreInv { v.core with readable := true } (U.map Slot.range) ((O.map g).map Slot.range) := by
      have e : (O.map g).map Slot.range = O.map Slot.range := by
        rw [List.map_map]
        apply List.map_congr_left
        intro t _
        exact hgr t
      rw [e]
      obtain ⟨g1, g2, g3, g4, g5, g6, g7, g8⟩ := h.inv
      exact ⟨g1, g2, g3, g4, g5, g6, g7, g8⟩
    obtain ⟨A, B, c', e1, e2, e3, e4, e5, w, n, nc, tb, e6⟩ :=
      popCommitted_spec (O.map g) { v.core with readable := true } U hinv h.xb
    rw [hmark, e4]
    refine ⟨U ++ A, B, ?_, by trivial⟩
    have hall : (U ++ O).map g = U ++ A ++ B := by
      rw [List.map_append, hgU, e1, List.append_assoc]
    refine ⟨?_, ?_, e3, rfl, e5, ?_, ?_, ?_, ?_, ?_, ?_, ?_, ?_, ?_, ?_, ?_, ?_, ?_, ?_, ?_, ?_, ?_, ?_⟩
    · rw [h.slots]; exact hall
    · intro s hs
      rcases List.mem_append.1 hs with hs | hs
      · exact h.com s hs
      · exact e2 s hs
    · rw [e6]; exact h.len
    · rw [e6]; exact h.xb
    · rw [e6]; exact h.ow
    · rw [e6]; exact h.nws
    · rw [e6]; exact h.locks
    · rw [e6]; exact h.shut
    · intro s hs
      rw [← hall] at hs
      obtain ⟨t, ht, rfl⟩ := List.mem_map.1 hs
      rw [e6]
      exact hgmem _ t (h.data t ht)
    · have hc := h.cons
      revert hc
      simp only
      cases hcs : f.consumer with
      | none => exact id
      | some bb =>
        cases bb with
        | false => exact id
        | true =>
          rintro ⟨s, hs, hv⟩
          refine ⟨s, ?_, hv⟩
          cases U with
          | nil => simp at hs
          | cons u U => simpa using hs
    · rw [← hall, List.pairwise_map]
      exact h.ids.imp (by intro a b hab; rw [hgid, hgid]; exact hab)
    · intro s hs
      rw [← hall] at hs
      obtain ⟨t, ht, rfl⟩ := List.mem_map.1 hs
      rw [hgid]; exact h.idlt t ht
    · rw [← hall, OwnersDistinct, List.pairwise_map]
      exact h.owners.imp (by
        intro a b hab ha hb
        rw [hgo, hgo]
        exact hab (hgc a ha) (hgc b hb))
    · rw [e6]; exact h.drain
    · rw [e6]; exact h.lostR
    · rw [e6]; exact h.lostB
    · rw [e6]; exact h.refR
    · rw [e6]; exact h.refB
    · rw [e6]
      have := h.cntR
      simp at this ⊢; omega
    · rw [e6]
      have := h.cntB
      simp [sumBytes] at this ⊢; omega
  · have hh : f.slots.any (fun s => s.owner == p && !s.committed) = false := by simpa using hh
    rw [if_pos (by simp [hh]), if_neg (by simp [hh])]
    exact ⟨U, O, h, rfl⟩

/-! ### Reading -/

theorem Sim.startRead {v : Vol} {f : Fifo} {U O : List Slot} (h : Sim v f U O) (block : Bool) :
    ∃ U' O', Sim (v.startRead block).1 (f.startRead block).1 U' O' ∧
      (Out.record (v.startRead block).2).agrees (SOut.record (f.startRead block).2) := by
  obtain ⟨core, cons, resv⟩ := v
  have hc := h.cons
  unfold Vol.startRead Fifo.startRead
  cases hcs : f.consumer with
  | none =>
    rw [hcs] at hc
    simp only at hc
    subst hc
    exact ⟨U, O, h, rfl⟩
  | some b =>
    rw [hcs] at hc
    cases b with
    | true =>
      obtain ⟨s, hs, hv⟩ := hc
      simp only at hv
      subst hv
      have : ∀ b, core.startRead b block (some s.range) =
          (core, .err .invalidArgument) := by intro b; simp [Core.startRead]
      simp only [this]
      exact ⟨U, O, h, rfl⟩
    | false =>
      simp only at hc
      subst hc
      rw [h.visible]
      simp only
      cases U with
      | nil =>
        have hpe : core.pendingReset = false := h.inv.pend
        have hsh := h.shut
        simp only at hsh
        have hn : core.nrs = none := by simpa using h.inv.nrs
        have hfc : f.consumer = some false := hcs
        cases block with
        | true =>
          by_cases hsd : f.shutdown = true
          · have : ∀ b, core.startRead b true none = (core, .err .aborted) := by
              intro b; simp [Core.startRead, hpe, hn, hsh, hsd]
            simp only [this, hsd, if_true]
            exact ⟨[], O, h, rfl⟩
          · have : ∀ b, core.startRead b true none = (core, .blocked) := by
              intro b; simp [Core.startRead, hpe, hn, hsh, hsd]
            simp only [this, hsd, if_true]
            exact ⟨[], O, h, trivial⟩
        | false =>
          have : ∀ b, core.startRead b false none =
              ({ core with readable := false }, .err .unavailable) := by
            intro b; simp [Core.startRead, hpe, hn]
          simp only [this]
          refine ⟨[], O, ?_, rfl⟩
          obtain ⟨h1, h2, h3, h4, h5, h6, h7, h8, h9, h10, h11, h12, h13, h14, h15, h16, h17, h18,
            h19, h20, h21, h22, h23⟩ := h
          obtain ⟨g1, g2, g3, g4, g5, g6, g7, g8⟩ := h5
          exact ⟨h1, h2, h3, h4, ⟨g1, g2, g3, g4, g5, g6, g7, g8⟩, h6, h7, h8, h9, h10, h11, h12, h13,
            h14, h15, h16, h17, h18, h19, h20, h21, h22, h23⟩
      | cons s U =>
        have hpe : core.pendingReset = false := h.inv.pend
        have hsh := h.shut
        simp only at hsh
        have hn : core.nrs = some s.start := by simpa [Slot.range] using h.inv.nrs
        have hx : core.xb = 4 := h.xb
        have hsm : s ∈ s :: U ++ O := by simp
        have hload : core.loadSize s.start = some s.size := by
          have := h.inv.loadSize (h.mem_range hsm)
          simpa [Slot.range, hx] using this
        have : ∀ b, core.startRead b block none =
            (core, .ok s.range) := by
          intro b; simp [Core.startRead, hpe, hn, hload, (show core.xb = 4 from h.xb), Slot.range]
        simp only [this]
        refine ⟨s :: U, O, ?_, ?_, ?_⟩
        · obtain ⟨h1, h2, h3, h4, h5, h6, h7, h8, h9, h10, h11, h12, h13, h14, h15, h16, h17, h18,
            h19, h20, h21, h22, h23⟩ := h
          exact ⟨h1, h2, h3, h4, h5, h6, h7, h8, h9, h10, h11, h12, ⟨s, rfl, rfl⟩,
            h14, h15, h16, h17, h18, h19, h20, h21, h22, h23⟩
        · simp [Slot.range, hx, headerBytes]
        · have hd : SlotMem core.mem s := h.data s hsm
          refine ⟨by simp [readMem_length, Slot.range, hx, hd.2.1], fun i b hi => ?_⟩
          have hlt : i < s.size := by
            rw [← hd.2.1]
            rcases Nat.lt_or_ge i s.data.length with h' | h'
            · exact h'
            · rw [List.getElem?_eq_none h'] at hi; simp at hi
          rw [readMem_getElem? _ _ _ _ (by simp [Slot.range, hx, hlt])]
          have := hd.2.2 i b hi
          simp only [hx, Slot.range]
          exact congrArg some this

theorem Sim.finishRead {v : Vol} {f : Fifo} {U O : List Slot} (h : Sim v f U O) :
    ∃ U' O', Sim v.finishRead.1 f.finishRead.1 U' O' ∧ v.finishRead.2 = f.finishRead.2 := by
  have hc := h.cons
  unfold Vol.finishRead Fifo.finishRead
  cases hcs : f.consumer with
  | none =>
    rw [hcs] at hc
    simp only at hc
    rw [hc]
    exact ⟨U, O, h, rfl⟩
  | some b =>
    rw [hcs] at hc
    cases b with
    | false =>
      simp only at hc
      rw [hc]
      exact ⟨U, O, h, rfl⟩
    | true =>
      obtain ⟨s, hs, hv⟩ := hc
      rw [hv]
      simp only
      cases U with
      | nil => simp at hs
      | cons u U =>
        obtain rfl : u = s := by simpa using hs
        have hinv : CoreInv (v.core.advanceRead u.range.size) (U.map Slot.range) (O.map Slot.range) :=
          CoreInv.advanceRead (r := u.range) (by simpa using h.inv)
        obtain ⟨a, b, l, p, hfr⟩ := advanceRead_frame v.core u.range.size
        have hp : p = false := by
          have := hinv.panic
          rw [hfr] at this; exact this
        have hhead : f.slots.head?.map (·.start) = some u.start := by rw [h.slots]; simp
        have hpend := h.inv.pend
        -- the value computed by `finish_read_common`
        have hres : v.core.finishRead v.hasWrite u.range =
            ({ v.core.advanceRead u.range.size with
                stats := { v.core.stats with
                  totalBytesRead := v.core.stats.totalBytesRead + u.range.size
                  recordsRead := v.core.stats.recordsRead + 1
                  bytesRead := v.core.stats.bytesRead + u.size }
                drain := if f.drain.isSome && f.drain == (f.slots.head?.map (·.start)) then none
                  else v.core.drain },
              f.drain.isSome && f.drain == (f.slots.head?.map (·.start))) := by
          rw [hhead]
          unfold Core.finishRead Core.maybeReset
          rw [hfr]
          simp only [hpend, h.drain]
          cases hd : f.drain with
          | none => simp [Slot.range, h.xb]
          | some t =>
            by_cases ht : t = u.start
            · simp [Slot.range, h.xb, ht]
            · simp [Slot.range, h.xb, ht]
        rw [hres]
        simp only
        refine ⟨U, O, ?_, by trivial⟩
        refine ⟨by simp [h.slots], fun x hx => h.com x (by simp [hx]), h.unc, h.resv, ?_, ?_, ?_, ?_,
          ?_, ?_, ?_, ?_, rfl, ?_, ?_, ?_, ?_, ?_, ?_, ?_, ?_, ?_, ?_⟩
        · obtain ⟨g1, g2, g3, g4, g5, g6, g7, g8⟩ := hinv
          exact ⟨g1, g2, g3, g4, g5, g6, g7, g8⟩
        · rw [hfr]; exact h.len
        · rw [hfr]; exact h.xb
        · rw [hfr]; exact h.ow
        · rw [hfr]; exact h.nws
        · rw [hfr]; exact h.locks
        · rw [hfr]; exact h.shut
        · intro x hx
          rw [hfr]
          exact h.data x (by simp at hx ⊢; exact Or.inr hx)
        · have := h.ids
          rw [List.cons_append] at this
          exact (List.pairwise_cons.1 this).2
        · intro x hx
          exact h.idlt x (by simp at hx ⊢; exact Or.inr hx)
        · have := h.owners
          rw [OwnersDistinct, List.cons_append] at this
          exact (List.pairwise_cons.1 this).2
        · simp only
          split
          · rfl
          · exact h.drain
        · rw [hfr]; exact h.lostR
        · rw [hfr]; exact h.lostB
        · rw [hfr]; exact h.refR
        · rw [hfr]; exact h.refB
        · have := h.cntR
          simp at this ⊢; omega
        · have := h.cntB
          simp [sumBytes] at this ⊢; omega

/-! ### The other calls, and whole runs -/

theorem getLast?_map' {α β : Type} (g : α → β) (l : List α) :
    (l.map g).getLast? = l.getLast?.map g := by
  simp [List.getLast?_map]

theorem Sim.step {v : Vol} {f : Fifo} {U O : List Slot} (h : Sim v f U O) (op : Op) :
    ∃ U' O', Sim (v.step op).1 (f.step op).1 U' O' ∧ (v.step op).2.agrees (f.step op).2 := by
  cases op with
  | reserve p size =>
    obtain ⟨U', O', h1, h2⟩ := h.reserve p size
    exact ⟨U', O', h1, h2⟩
  | write p off bytes =>
    obtain ⟨U', O', h1, h2⟩ := h.write p off bytes
    exact ⟨U', O', h1, h2⟩
  | commit p =>
    obtain ⟨U', O', h1, h2⟩ := h.commit p
    exact ⟨U', O', h1, h2⟩
  | startRead b => exact h.startRead b
  | finishRead =>
    obtain ⟨U', O', h1, h2⟩ := h.finishRead
    exact ⟨U', O', h1, h2⟩
  | registerConsumer =>
    have hc := h.cons
    simp only [Vol.step, Fifo.step, Vol.registerConsumer]
    cases hcs : f.consumer with
    | none =>
      rw [hcs] at hc; simp only at hc; rw [hc]
      refine ⟨U, O, ?_, rfl⟩
      obtain ⟨h1, h2, h3, h4, h5, h6, h7, h8, h9, h10, h11, h12, h13, h14, h15, h16, h17, h18,
        h19, h20, h21, h22, h23⟩ := h
      exact ⟨h1, h2, h3, h4, h5, h6, h7, h8, h9, h10, h11, h12, rfl,
        h14, h15, h16, h17, h18, h19, h20, h21, h22, h23⟩
    | some b =>
      rw [hcs] at hc
      cases b with
      | false => simp only at hc; rw [hc]; exact ⟨U, O, h, rfl⟩
      | true =>
        obtain ⟨s, hs, hv⟩ := hc
        rw [hv]; exact ⟨U, O, h, rfl⟩
  | dropConsumer =>
    refine ⟨U, O, ?_, rfl⟩
    obtain ⟨h1, h2, h3, h4, h5, h6, h7, h8, h9, h10, h11, h12, h13, h14, h15, h16, h17, h18,
      h19, h20, h21, h22, h23⟩ := h
    exact ⟨h1, h2, h3, h4, h5, h6, h7, h8, h9, h10, h11, h12, rfl,
      h14, h15, h16, h17, h18, h19, h20, h21, h22, h23⟩
  | waitForDrain =>
    simp only [Vol.step, Fifo.step, h.visible]
    have hn := h.inv.nrs
    have hw := h.inv.cws
    rw [getLast?_map'] at hw
    cases hU : U.getLast? with
    | none =>
      have : U = [] := by simpa [List.getLast?_eq_none_iff] using hU
      subst this
      have hr : v.hasRead = false := by
        have hc := h.cons
        cases hcs : f.consumer with
        | none => rw [hcs] at hc; simp only at hc; simp [Vol.hasRead, hc]
        | some b =>
          rw [hcs] at hc
          cases b with
          | false => simp only at hc; simp [Vol.hasRead, hc]
          | true => obtain ⟨s, hs, _⟩ := hc; simp at hs
      have : v.core.waitForDrain v.hasRead = (v.core, false) := by
        simp at hn
        simp [Core.waitForDrain, hr, hn]
      rw [this]
      exact ⟨[], O, h, rfl⟩
    | some s =>
      have hne : U ≠ [] := by rintro rfl; simp at hU
      rw [hU] at hw
      have : v.core.waitForDrain v.hasRead = ({ v.core with drain := some (some s.start) }, true) := by
        have : v.core.nrs.isSome = true := by
          rw [hn]; cases U with
          | nil => exact absurd rfl hne
          | cons u U => rfl
        simp [Core.waitForDrain, this, hw, Slot.range]
      rw [this]
      refine ⟨U, O, ?_, rfl⟩
      obtain ⟨h1, h2, h3, h4, h5, h6, h7, h8, h9, h10, h11, h12, h13, h14, h15, h16, h17, h18,
        h19, h20, h21, h22, h23⟩ := h
      obtain ⟨g1, g2, g3, g4, g5, g6, g7, g8⟩ := h5
      exact ⟨h1, h2, h3, h4, ⟨g1, g2, g3, g4, g5, g6, g7, g8⟩, h6, h7, h8, h9, h10, h11, h12, h13,
        h14, h15, h16, rfl, h18, h19, h20, h21, h22, h23⟩
  | lock =>
    refine ⟨U, O, ?_, rfl⟩
    obtain ⟨h1, h2, h3, h4, h5, h6, h7, h8, h9, h10, h11, h12, h13, h14, h15, h16, h17, h18,
      h19, h20, h21, h22, h23⟩ := h
    obtain ⟨g1, g2, g3, g4, g5, g6, g7, g8⟩ := h5
    exact ⟨h1, h2, h3, h4, ⟨g1, g2, g3, g4, g5, g6, g7, g8⟩, h6, h7, h8, h9,
      by simp [Vol.step, Fifo.step, h10], h11, h12, h13,
      h14, h15, h16, h17, h18, h19, h20, h21, h22, h23⟩
  | unlock =>
    refine ⟨U, O, ?_, rfl⟩
    obtain ⟨h1, h2, h3, h4, h5, h6, h7, h8, h9, h10, h11, h12, h13, h14, h15, h16, h17, h18,
      h19, h20, h21, h22, h23⟩ := h
    obtain ⟨g1, g2, g3, g4, g5, g6, g7, g8⟩ := h5
    exact ⟨h1, h2, h3, h4, ⟨g1, g2, g3, g4, g5, g6, g7, g8⟩, h6, h7, h8, h9,
      by simp [Vol.step, Fifo.step, h10], h11, h12, h13,
      h14, h15, h16, h17, h18, h19, h20, h21, h22, h23⟩
  | shutdown =>
    refine ⟨U, O, ?_, rfl⟩
    obtain ⟨h1, h2, h3, h4, h5, h6, h7, h8, h9, h10, h11, h12, h13, h14, h15, h16, h17, h18,
      h19, h20, h21, h22, h23⟩ := h
    obtain ⟨g1, g2, g3, g4, g5, g6, g7, g8⟩ := h5
    by_cases hs : f.shutdown = true
    · simp only [Vol.step, Fifo.step, Core.doShutdown, h11, hs, if_true]
      exact ⟨h1, h2, h3, h4, ⟨g1, g2, g3, g4, g5, g6, g7, g8⟩, h6, h7, h8, h9, h10, h11, h12, h13,
        h14, h15, h16, h17, h18, h19, h20, h21, h22, h23⟩
    · simp only [Vol.step, Fifo.step, Core.doShutdown, h11, hs]
      exact ⟨h1, h2, h3, h4, ⟨g1, g2, g3, g4, g5, g6, g7, g8⟩, h6, h7, h8, h9,
        by simp [h10], rfl, h12, h13,
        h14, h15, h16, h17, h18, h19, h20, h21, h22, h23⟩

/-- Outputs agree one by one. -/
def agreesAll : List Out → List SOut → Prop
  | [], [] => True
  | o :: os, s :: ss => o.agrees s ∧ agreesAll os ss
  | _, _ => False

theorem Sim.run (ops : List Op) : ∀ {v : Vol} {f : Fifo} {U O : List Slot}, Sim v f U O →
    ∃ U' O', Sim (v.run ops).1 (f.run ops).1 U' O' ∧ agreesAll (v.run ops).2 (f.run ops).2 := by
  induction ops with
  | nil => intro v f U O h; exact ⟨U, O, h, trivial⟩
  | cons op ops ih =>
    intro v f U O h
    obtain ⟨U1, O1, h1, a1⟩ := h.step op
    obtain ⟨U2, O2, h2, a2⟩ := ih h1
    exact ⟨U2, O2, h2, a1, a2⟩

end Verif.Buffer
