import Verif.Buffer.Intrusive

/-
C89: the raw pointers of the reservation queue are always valid, and the queue behaves like the list of `Verif.Buffer.Model`.
-/
namespace Verif.Buffer

local macro "rt" : tactic => `(tactic| first | exact rfl | trivial)

/-- Every live cell is on one list, once; a producer's pointer is null or leads to its own uncommitted reservation on the queue; every
uncommitted reservation on the queue is pointed to by its owner. -/
structure PVol.Inv (v : PVol) : Prop where
  nodup : (v.q.queue ++ v.q.free).Nodup
  nonnull : ∀ a ∈ v.q.queue ++ v.q.free, a ≠ 0
  own : ∀ p, (v.prod p).ptr ≠ 0 → (v.prod p).ptr ∈ v.q.queue ∧
    v.q.cells (v.prod p).ptr = ⟨p, (v.prod p).slice, false⟩
  back : ∀ a ∈ v.q.queue, (v.q.cells a).committed = false → (v.prod (v.q.cells a).owner).ptr = a

theorem PVol.Inv.holds {v : PVol} (h : v.Inv) (p : Nat) :
    v.view.holds p = decide ((v.prod p).ptr ≠ 0) := by
  rw [Bool.eq_iff_iff]
  simp only [Vol.holds, PVol.view, List.any_eq_true, List.mem_map, Bool.and_eq_true, beq_iff_eq,
    Bool.not_eq_true', decide_eq_true_eq]
  constructor
  · rintro ⟨r, ⟨a, ha, rfl⟩, ho, hc⟩ hn
    have := h.back a ha hc
    rw [ho, hn] at this
    exact h.nonnull a (List.mem_append_left _ ha) this.symm
  · intro hp
    obtain ⟨hm, hc⟩ := h.own p hp
    exact ⟨_, ⟨_, hm, rfl⟩, by rw [hc], by rw [hc]⟩

theorem PVol.Inv.core_congr {v w : PVol} (h : v.Inv) (hq : w.q = v.q) (hp : w.prod = v.prod) : w.Inv := by
  constructor
  · rw [hq]; exact h.nodup
  · rw [hq]; exact h.nonnull
  · rw [hq, hp]; exact h.own
  · rw [hq, hp]; exact h.back

theorem head?_front (q : PtrQ) : (q.queue.map q.cells).head? = q.front := by
  unfold PtrQ.front
  cases q.queue <;> rfl

theorem writeHit_view (v : PVol) (c : Core) (t : Temp) : v.view.writeHit c t = v.writeHit c t := by
  unfold Vol.writeHit PVol.writeHit
  rw [show v.view.resv.head? = v.q.front from head?_front v.q]
  rfl

theorem hasWrite_view (v : PVol) : v.view.hasWrite = !v.q.isEmpty := by
  unfold Vol.hasWrite PtrQ.isEmpty PVol.view
  cases v.q.queue <;> rfl

/-- What `emplace_back` does, whichever way the cell was found. -/
theorem emplaceBack_spec (q : PtrQ) (al : Alloc) (r : Resv) (hn : (q.queue ++ q.free).Nodup)
    (h0 : ∀ a ∈ q.queue ++ q.free, a ≠ 0) :
    let x := q.emplaceBack al r
    x.2 ∉ q.queue ∧ x.2 ≠ 0 ∧ x.1.queue = q.queue ++ [x.2] ∧ (x.1.queue ++ x.1.free).Nodup ∧
    (∀ a ∈ x.1.queue ++ x.1.free, a ≠ 0) ∧
    x.1.cells = fun b => if b = x.2 then r else q.cells b := by
  rcases q with ⟨qu, fr, cells⟩
  cases fr with
  | cons a rest =>
    simp only [PtrQ.emplaceBack, PtrQ.store]
    have hnot : a ∉ qu := fun hm =>
      (List.nodup_append.mp hn).2.2 a hm a (List.mem_cons_self ..) rfl
    refine ⟨hnot, h0 a (by simp), by rt, ?_, ?_, by rt⟩
    · show (qu ++ [a] ++ rest).Nodup
      rw [List.append_assoc]
      exact hn
    · intro b hb
      have hb' : b ∈ qu ++ [a] ++ rest := hb
      rw [List.append_assoc] at hb'
      exact h0 b hb'
  | nil =>
    simp only [PtrQ.emplaceBack, PtrQ.store]
    have hal := al.2 (qu ++ [])
    simp only [List.append_nil] at hal hn h0 ⊢
    refine ⟨hal.1, hal.2, by rt, ?_, ?_, by rt⟩
    · rw [List.nodup_append]
      refine ⟨hn, by simp, ?_⟩
      intro x hx y hy hxy
      rw [List.mem_singleton] at hy
      subst hxy
      subst hy
      exact hal.1 hx
    · intro b hb
      rcases List.mem_append.mp hb with hb | hb
      · exact h0 b hb
      · rw [List.mem_singleton] at hb
        subst hb
        exact hal.2

theorem map_upd_of_not_mem (cells : Nat → Resv) (a : Nat) (r : Resv) (l : List Nat) (h : a ∉ l) :
    l.map (fun b => if b = a then r else cells b) = l.map cells := by
  apply List.map_congr_left
  intro b hb
  rw [if_neg]
  rintro rfl
  exact h hb

/-- The list model's step, seen from the pointer model's. -/
def SimStep (v : PVol) (x : PVol × Out) (y : Vol × Out) : Prop :=
  v.Inv → x.1.Inv ∧ x.1.view = y.1 ∧ x.2 = y.2 ∧ x.1.dangling = v.dangling ∧ x.1.twice = v.twice

theorem ptr_reserve_sim (v : PVol) (al : Alloc) (p size : Nat) (h : v.Inv) :
    (v.reserve al p size).1.Inv ∧ (v.reserve al p size).1.view = (v.view.reserve p size).1 ∧
    (v.reserve al p size).2 = (v.view.reserve p size).2 ∧
    (v.reserve al p size).1.dangling = v.dangling ∧ (v.reserve al p size).1.twice = v.twice := by
  unfold PVol.reserve Vol.reserve
  rw [h.holds p]
  by_cases hp : (v.prod p).ptr = 0
  · have hd : decide ((v.prod p).ptr ≠ 0) = false := by simp [hp]
    rw [hd, if_neg (by simpa using hp)]
    simp only [Bool.false_eq_true, if_false]
    have hcore : v.view.core = v.core := rfl
    rw [hcore]
    rcases hs : v.core.startReserve size with ⟨c, e | actual⟩
    · simp only
      exact ⟨h.core_congr rfl rfl, by rt, by rt, by rt, by rt⟩
    · simp only
      rw [writeHit_view, hasWrite_view]
      split
      · exact ⟨h.core_congr rfl rfl, by rt, by rt, by rt, by rt⟩
      · split
        · exact ⟨h.core_congr rfl rfl, by rt, by rt, by rt, by rt⟩
        · rcases ha : c.advanceForWrite (v.view.hasRead || !v.q.isEmpty) (c.calcNextWriteStart actual) true
            c.advanceFuel with ⟨c', _ | e | _⟩
          · simp only
            obtain ⟨h1, h2, h3, h4, h5, h6⟩ :=
              emplaceBack_spec v.q al ⟨p, (c.calcNextWriteStart actual).range, false⟩ h.nodup h.nonnull
            refine ⟨⟨h4, h5, ?_, ?_⟩, ?_, trivial, rfl, rfl⟩
            · intro p' hp'
              simp only [PVol.setProd] at hp' ⊢
              rw [h3, h6]
              by_cases hpp : p' = p
              · subst hpp
                simp
              · rw [if_neg hpp] at hp' ⊢
                obtain ⟨hm, hc⟩ := h.own p' hp'
                refine ⟨List.mem_append_left _ hm, ?_⟩
                have hne : (v.prod p').ptr ≠
                    (v.q.emplaceBack al ⟨p, (c.calcNextWriteStart actual).range, false⟩).2 := by
                  intro he
                  exact h1 (he ▸ hm)
                simp only [if_neg hne]
                exact hc
            · intro a ha' hc
              simp only [PVol.setProd] at ha' hc ⊢
              rw [h3] at ha'
              rw [h6] at hc ⊢
              rcases List.mem_append.mp ha' with hm | hm
              · have hne : a ≠ (v.q.emplaceBack al ⟨p, (c.calcNextWriteStart actual).range, false⟩).2 := by
                  intro he
                  exact h1 (he ▸ hm)
                simp only [if_neg hne] at hc ⊢
                have hb := h.back a hm hc
                have hpp : (v.q.cells a).owner ≠ p := by
                  intro he
                  rw [he, hp] at hb
                  exact h.nonnull a (List.mem_append_left _ hm) hb.symm
                rw [if_neg hpp]
                exact hb
              · rw [List.mem_singleton] at hm
                subst hm
                simp
            · simp only [PVol.view, PVol.setProd]
              rw [h3, h6, List.map_append, map_upd_of_not_mem _ _ _ _ h1]
              simp
          · exact ⟨h.core_congr rfl rfl, by rt, by rt, by rt, by rt⟩
          · exact ⟨h.core_congr rfl rfl, by rt, by rt, by rt, by rt⟩
  · have hd : decide ((v.prod p).ptr ≠ 0) = true := by simp [hp]
    rw [hd, if_pos hp]
    exact ⟨h, rfl, rfl, rfl, rfl⟩

theorem ptr_write_sim (v : PVol) (p off : Nat) (bs : List UInt8) (h : v.Inv) :
    (v.write p off bs).1.Inv ∧ (v.write p off bs).1.view = (v.view.write p off bs).1 ∧
    (v.write p off bs).2 = (v.view.write p off bs).2 ∧
    (v.write p off bs).1.dangling = v.dangling ∧ (v.write p off bs).1.twice = v.twice := by
  unfold PVol.write Vol.write
  by_cases hp : (v.prod p).ptr = 0
  · rw [if_pos hp]
    have : v.view.resv.find? (fun r => r.owner == p && !r.committed) = none := by
      have hh := h.holds p
      rw [hp] at hh
      simp only [Vol.holds, ne_eq, not_true_eq_false, decide_false] at hh
      rw [List.find?_eq_none]
      intro r hr hq
      have := List.any_eq_false.mp hh r hr
      exact this hq
    rw [this]
    exact ⟨h, rfl, rfl, rfl, rfl⟩
  · rw [if_neg hp]
    obtain ⟨hm, hc⟩ := h.own p hp
    have : v.view.resv.find? (fun r => r.owner == p && !r.committed) = some ⟨p, (v.prod p).slice, false⟩ := by
      cases hf : v.view.resv.find? (fun r => r.owner == p && !r.committed) with
      | none =>
        rw [List.find?_eq_none] at hf
        exact absurd (by rw [hc]; simp) (hf _ (List.mem_map.mpr ⟨_, hm, rfl⟩))
      | some r =>
        have hr := List.mem_of_find?_eq_some hf
        have hq := List.find?_some hf
        simp only [Bool.and_eq_true, beq_iff_eq, Bool.not_eq_true'] at hq
        obtain ⟨a, ha, rfl⟩ := List.mem_map.mp hr
        have hb := h.back a ha hq.2
        rw [hq.1] at hb
        rw [← hb, hc]
    rw [this]
    simp only
    have hcore : v.view.core = v.core := rfl
    rw [hcore]
    split
    · exact ⟨h.core_congr rfl rfl, by rt, by rt, by rt, by rt⟩
    · exact ⟨h, rfl, rfl, rfl, rfl⟩

/-- The pop loop: what it leaves of the two lists, and that the list model's loop does the same. -/
theorem popLoop_spec : ∀ (n : Nat) (c : Core) (q : PtrQ), n = q.queue.length →
    let x := popLoop c q n
    popCommitted c (q.queue.map q.cells) = (x.1, x.2.queue.map x.2.cells) ∧ x.2.cells = q.cells ∧
    (x.2.queue ++ x.2.free).Perm (q.queue ++ q.free) ∧
    ∃ k, x.2.queue = q.queue.drop k ∧ ∀ a ∈ q.queue.take k, (q.cells a).committed = true
  | 0, c, q, hn => by
    have : q.queue = [] := List.length_eq_zero_iff.mp hn.symm
    simp only [popLoop]
    refine ⟨?_, by rt, .refl _, 0, by simp, by simp⟩
    rw [this]
    rfl
  | n + 1, c, ⟨a :: rest, fr, cells⟩, hn => by
    simp only [popLoop, PtrQ.front]
    by_cases hc : (cells a).committed
    · rw [if_pos hc]
      obtain ⟨h1, h2, h3, k, h4, h5⟩ := popLoop_spec n (c.advanceCommitted (cells a).range)
        (PtrQ.popFront ⟨a :: rest, fr, cells⟩) (by simpa [PtrQ.popFront] using hn)
      refine ⟨?_, h2, ?_, k + 1, h4, ?_⟩
      · simp only [List.map_cons, popCommitted]
        rw [if_pos hc]
        exact h1
      · refine h3.trans ?_
        simp only [PtrQ.popFront, List.cons_append]
        exact List.perm_middle
      · intro b hb
        rw [List.take_succ_cons, List.mem_cons] at hb
        rcases hb with rfl | hb
        · exact hc
        · exact h5 b hb
    · rw [if_neg hc]
      refine ⟨?_, rfl, .refl _, 0, by simp, by simp⟩
      simp only [List.map_cons, popCommitted]
      rw [if_neg hc]
  | n + 1, c, ⟨[], fr, cells⟩, hn => by simp at hn

theorem markCommitted_view {v : PVol} (h : v.Inv) (p : Nat) (hp : (v.prod p).ptr ≠ 0) :
    markCommitted p v.view.resv =
      v.q.queue.map (v.q.store (v.prod p).ptr { v.q.cells (v.prod p).ptr with committed := true }).cells := by
  simp only [markCommitted, PVol.view, List.map_map, PtrQ.store]
  apply List.map_congr_left
  intro a ha
  obtain ⟨hm, hc⟩ := h.own p hp
  simp only [Function.comp]
  by_cases hap : a = (v.prod p).ptr
  · subst hap
    rw [if_pos rfl, hc]
    simp
  · rw [if_neg hap, if_neg]
    intro hq
    simp only [Bool.and_eq_true, beq_iff_eq, Bool.not_eq_true'] at hq
    have hb := h.back a ha hq.2
    rw [hq.1] at hb
    exact hap hb.symm

theorem ptr_commit_sim (v : PVol) (p : Nat) (h : v.Inv) :
    (v.commit p).1.Inv ∧ (v.commit p).1.view = (v.view.commit p).1 ∧
    (v.commit p).2 = (v.view.commit p).2 ∧
    (v.commit p).1.dangling = v.dangling ∧ (v.commit p).1.twice = v.twice := by
  unfold PVol.commit Vol.commit
  rw [h.holds p]
  by_cases hp : (v.prod p).ptr = 0
  · have hd : decide ((v.prod p).ptr ≠ 0) = false := by simp [hp]
    rw [hd]
    simp only [hp, if_true, Bool.not_false]
    exact ⟨h, by rt, by rt, by rt, by rt⟩
  · have hd : decide ((v.prod p).ptr ≠ 0) = true := by simp [hp]
    rw [hd]
    simp only [if_neg hp, Bool.not_true, Bool.false_eq_true, if_false]
    rw [markCommitted_view h p hp]
    obtain ⟨hm, hc⟩ := h.own p hp
    generalize hq : v.q.store (v.prod p).ptr { v.q.cells (v.prod p).ptr with committed := true } = q
    have hqq : q.queue = v.q.queue := by rw [← hq]; rfl
    have hqf : q.free = v.q.free := by rw [← hq]; rfl
    have hcells : q.cells = fun b => if b = (v.prod p).ptr then ⟨p, (v.prod p).slice, true⟩ else v.q.cells b := by
      rw [← hq]
      funext b
      simp only [PtrQ.store, hc]
    have hcore : v.view.core = v.core := rfl
    rw [hcore, ← hqq]
    obtain ⟨h1, h2, h3, k, h4, h5⟩ := popLoop_spec q.queue.length { v.core with readable := true } q rfl
    have e : q.queue ++ q.free = v.q.queue ++ v.q.free := by rw [hqq, hqf]
    rw [e] at h3
    rw [h1]
    generalize popLoop { v.core with readable := true } q q.queue.length = x at *
    refine ⟨⟨?_, ?_, ?_, ?_⟩, by rt, by rt, ?_, ?_⟩
    · exact h3.symm.nodup h.nodup
    · exact fun a ha => h.nonnull a (h3.mem_iff.mp ha)
    · intro p' hp'
      simp only [PVol.setProd] at hp' ⊢
      by_cases hpp : p' = p
      · rw [if_pos hpp] at hp'
        exact absurd rfl hp'
      · rw [if_neg hpp] at hp' ⊢
        obtain ⟨hm', hc'⟩ := h.own p' hp'
        have hne : (v.prod p').ptr ≠ (v.prod p).ptr := by
          intro he
          rw [he, hc] at hc'
          injection hc' with hc' _
          exact hpp hc'.symm
        have hcell : q.cells (v.prod p').ptr = ⟨p', (v.prod p').slice, false⟩ := by
          rw [hcells]
          simp only [if_neg hne]
          exact hc'
        rw [h2, hcell]
        refine ⟨?_, rfl⟩
        rw [h4]
        rw [← hqq, ← List.take_append_drop k q.queue] at hm'
        rcases List.mem_append.mp hm' with hx | hx
        · have := h5 _ hx
          rw [hcell] at this
          cases this
        · exact hx
    · intro a ha hca
      simp only [PVol.setProd] at ha hca ⊢
      rw [h2] at hca ⊢
      rw [h4] at ha
      have ha' := List.mem_of_mem_drop ha
      rw [hqq] at ha'
      have hne : a ≠ (v.prod p).ptr := by
        intro he
        rw [hcells, he] at hca
        simp at hca
      have hcell : q.cells a = v.q.cells a := by
        rw [hcells]
        simp only [if_neg hne]
      rw [hcell] at hca ⊢
      have hb := h.back a ha' hca
      have hpp : (v.q.cells a).owner ≠ p := by
        intro he
        rw [he] at hb
        exact hne hb.symm
      rw [if_neg hpp]
      exact hb
    · simp only [PVol.setProd]
      simp [hqq, hm]
    · simp only [PVol.setProd]
      simp [hc]

theorem ptr_step_sim (v : PVol) (al : Alloc) (op : Op) (h : v.Inv) :
    (v.step al op).1.Inv ∧ (v.step al op).1.view = (v.view.step op).1 ∧
    (v.step al op).2 = (v.view.step op).2 ∧
    (v.step al op).1.dangling = v.dangling ∧ (v.step al op).1.twice = v.twice := by
  cases op with
  | reserve p size =>
    have := ptr_reserve_sim v al p size h
    simp only [PVol.step, Vol.step]
    exact ⟨this.1, this.2.1, by rw [this.2.2.1], this.2.2.2⟩
  | write p off bs =>
    have := ptr_write_sim v p off bs h
    simp only [PVol.step, Vol.step]
    exact ⟨this.1, this.2.1, by rw [this.2.2.1], this.2.2.2⟩
  | commit p =>
    have := ptr_commit_sim v p h
    simp only [PVol.step, Vol.step]
    exact ⟨this.1, this.2.1, by rw [this.2.2.1], this.2.2.2⟩
  | registerConsumer =>
    refine ⟨h.core_congr rfl rfl, ?_, rfl, rfl, rfl⟩
    simp only [PVol.step, Vol.step, Vol.registerConsumer, PVol.view]
    cases v.consumer <;> rfl
  | dropConsumer => exact ⟨h.core_congr rfl rfl, by rt, by rt, by rt, by rt⟩
  | startRead b =>
    refine ⟨h.core_congr rfl rfl, ?_, rfl, rfl, rfl⟩
    simp only [PVol.step, Vol.step]
    generalize hv : v.view = w
    have hw : w.resv = v.q.queue.map v.q.cells := by rw [← hv]; rfl
    unfold Vol.startRead
    rcases hcon : w.consumer with _ | res
    · simp only [PVol.view]
      rw [← hw]
    · simp only
      rcases w.core.startRead (w.hasRead || w.hasWrite) b res with ⟨c, r | e | _⟩ <;>
        simp only [PVol.view] <;> rw [← hw] 
  | finishRead =>
    refine ⟨h.core_congr rfl rfl, ?_, rfl, rfl, rfl⟩
    simp only [PVol.step, Vol.step]
    generalize hv : v.view = w
    have hw : w.resv = v.q.queue.map v.q.cells := by rw [← hv]; rfl
    unfold Vol.finishRead
    rcases hcon : w.consumer with _ | _ | r <;> simp only [PVol.view] <;> rw [← hw] 
  | waitForDrain => exact ⟨h.core_congr rfl rfl, by rt, by rt, by rt, by rt⟩
  | lock => exact ⟨h.core_congr rfl rfl, by rt, by rt, by rt, by rt⟩
  | unlock => exact ⟨h.core_congr rfl rfl, by rt, by rt, by rt, by rt⟩
  | shutdown => exact ⟨h.core_congr rfl rfl, by rt, by rt, by rt, by rt⟩

theorem ptr_run_sim : ∀ (ops : List (Alloc × Op)) (v : PVol), v.Inv →
    (v.run ops).1.Inv ∧ (v.run ops).1.view = (v.view.run (ops.map (·.2))).1 ∧
    (v.run ops).2 = (v.view.run (ops.map (·.2))).2 ∧
    (v.run ops).1.dangling = v.dangling ∧ (v.run ops).1.twice = v.twice
  | [], v, h => ⟨h, rfl, rfl, rfl, rfl⟩
  | (al, op) :: ops, v, h => by
    obtain ⟨h1, h2, h3, h4, h5⟩ := ptr_step_sim v al op h
    obtain ⟨g1, g2, g3, g4, g5⟩ := ptr_run_sim ops _ h1
    simp only [PVol.run, List.map_cons, Vol.run]
    rw [h2] at g2 g3
    exact ⟨g1, g2, by rw [h3, g3], g4.trans h4, g5.trans h5⟩

theorem PVol.inv_new (len : Nat) (mem : Mem) : (PVol.new len mem).Inv :=
  ⟨by simp [PVol.new], by simp [PVol.new], by simp [PVol.new], by simp [PVol.new]⟩

/-- C89: whatever any number of producers, the consumer and the allocator do, every call returns what the list model returns and the queue
holds the same reservations in the same order.  So all theorems about `Vol.run` (C01 to C04) hold for the code with raw pointers. -/
theorem C89_refines (len : Nat) (mem : Mem) (ops : List (Alloc × Op)) :
    ((PVol.new len mem).run ops).2 = ((Vol.new len mem).run (ops.map (·.2))).2 ∧
    (let v := ((PVol.new len mem).run ops).1
     let w := ((Vol.new len mem).run (ops.map (·.2))).1
     v.core = w.core ∧ v.consumer = w.consumer ∧ v.q.queue.map v.q.cells = w.resv) := by
  obtain ⟨_, h2, h3, _, _⟩ := ptr_run_sim ops _ (PVol.inv_new len mem)
  refine ⟨h3, ?_⟩
  have hv : (PVol.new len mem).view = Vol.new len mem := rfl
  rw [hv] at h2
  exact ⟨congrArg Vol.core h2, congrArg Vol.consumer h2, congrArg Vol.resv h2⟩

/-- C89: the assumption of the `unsafe` block of `map_mut` holds: no call ever dereferences a pointer to a cell that is not on the queue,
and the `debug_assert!` of `commit` never fails. -/
theorem C89_no_dangling (len : Nat) (mem : Mem) (ops : List (Alloc × Op)) :
    ((PVol.new len mem).run ops).1.dangling = false ∧ ((PVol.new len mem).run ops).1.twice = false := by
  obtain ⟨_, _, _, h4, h5⟩ := ptr_run_sim ops _ (PVol.inv_new len mem)
  exact ⟨h4, h5⟩

/-- C89: at any time the pointers of two producers differ, each leads to the uncommitted reservation made by that producer, with the range
it was handed, and no cell is on both lists or twice on one. -/
theorem C89_exclusive (len : Nat) (mem : Mem) (ops : List (Alloc × Op)) :
    let v := ((PVol.new len mem).run ops).1
    (v.q.queue ++ v.q.free).Nodup ∧
    ∀ p, (v.prod p).ptr ≠ 0 → (v.prod p).ptr ∈ v.q.queue ∧
      v.q.cells (v.prod p).ptr = ⟨p, (v.prod p).slice, false⟩ ∧
      ∀ p', p' ≠ p → (v.prod p').ptr ≠ (v.prod p).ptr := by
  obtain ⟨h, _⟩ := ptr_run_sim ops _ (PVol.inv_new len mem)
  refine ⟨h.nodup, fun p hp => ⟨(h.own p hp).1, (h.own p hp).2, fun p' hpp he => ?_⟩⟩
  have h1 := (h.own p hp).2
  have h2 := (h.own p' (he ▸ hp)).2
  rw [he, h1] at h2
  injection h2 with h2 _
  exact hpp h2.symm

/-- An allocator: one more than everything in use. -/
def bump : Alloc := ⟨fun l => l.foldr max 0 + 1, by
  intro l
  refine ⟨fun hm => ?_, Nat.succ_ne_zero _⟩
  have : ∀ (l : List Nat) (a : Nat), a ∈ l → a ≤ l.foldr max 0 := by
    intro l
    induction l with
    | nil => intro a ha; cases ha
    | cons x xs ih =>
      intro a ha
      rw [List.foldr_cons]
      rcases List.mem_cons.mp ha with rfl | ha
      · exact Nat.le_max_left ..
      · exact Nat.le_trans (ih a ha) (Nat.le_max_right ..)
  have := this l _ hm
  exact absurd this (Nat.not_succ_le_self _)⟩

/-- Two producers; the cell of the first is reused by it after its commit, while the second still holds its own. -/
example :
    let ops := [(bump, Op.reserve 1 4), (bump, .reserve 2 4), (bump, .commit 1), (bump, .reserve 1 5)]
    let v := ((PVol.new 64 (fun _ => 0)).run ops).1
    v.q.queue = [2, 1] ∧ v.q.free = [] ∧ (v.prod 1).ptr = 1 ∧ (v.prod 2).ptr = 2 := by
  decide +kernel

/-- Committed out of order, both cells stay until the first is committed; then both are free. -/
example :
    let ops := [(bump, Op.reserve 1 4), (bump, .reserve 2 4), (bump, .commit 2), (bump, .commit 1)]
    let v := ((PVol.new 64 (fun _ => 0)).run ops).1
    v.q.queue = [] ∧ v.q.free = [2, 1] ∧ (v.prod 1).ptr = 0 := by
  decide +kernel

end Verif.Buffer
