import Verif.Upload.Trigger

/-
C16: at most one triggered upload per buffer at a time.
-/
namespace Verif.Upload

/-- The active buffers are exactly the buffers being uploaded or whose completion is still to be processed,
each once. -/
structure TM.Inv (s : TM) : Prop where
  nodup : s.active.Nodup
  perm : s.active.Perm (s.running.map (·.2) ++ s.notifying)
  fresh : ∀ x ∈ s.running, x.1 < s.requests
  opn : s.open_.Nodup ∧ ∀ r ∈ s.open_, r < s.requests
  waits : s.dead = false → ∀ x ∈ s.running, x.1 ∈ s.open_

theorem startAll_spec (r : Nat) (bad : List BufId) (ids : List BufId) :
    ∀ s : TM, s.active.Nodup → s.active.Perm (s.running.map (·.2) ++ s.notifying) →
      ∃ new : List BufId, (TM.startAll r bad ids s).running = s.running ++ new.map (fun b => (r, b)) ∧
        (TM.startAll r bad ids s).active = s.active ++ new ∧
        (TM.startAll r bad ids s).notifying = s.notifying ∧ (TM.startAll r bad ids s).known = s.known ∧
        (TM.startAll r bad ids s).requests = s.requests ∧ (TM.startAll r bad ids s).open_ = s.open_ ∧
        new.Nodup ∧ (∀ b ∈ new, b ∈ ids ∧ b ∈ s.known ∧ b ∉ s.active ∧ b ∉ bad) ∧
        ((∀ b ∈ ids, b ∈ s.known → b ∉ s.active → b ∉ bad) →
          (TM.startAll r bad ids s).dead = s.dead ∧ ∀ b ∈ ids, b ∈ s.known → b ∉ s.active → b ∈ new) := by
  induction ids with
  | nil => intro s _ _; exact ⟨[], by simp [TM.startAll]⟩
  | cons b bs ih =>
    intro s hn hp
    by_cases h1 : b ∈ s.active
    · have e : TM.startAll r bad (b :: bs) s = TM.startAll r bad bs s := by simp [TM.startAll, h1]
      rw [e]
      obtain ⟨new, a1, a2, a3, a4, a5, a6, a7, a8, a9⟩ := ih s hn hp
      refine ⟨new, a1, a2, a3, a4, a5, a6, a7, fun x hx => ?_, fun hb => ?_⟩
      · obtain ⟨c1, c2⟩ := a8 x hx
        exact ⟨List.mem_cons_of_mem _ c1, c2⟩
      · obtain ⟨d1, d2⟩ := a9 fun x hx => hb x (List.mem_cons_of_mem _ hx)
        refine ⟨d1, fun x hx hk ha => ?_⟩
        rcases List.mem_cons.mp hx with rfl | hx
        · exact absurd h1 ha
        · exact d2 x hx hk ha
    · by_cases h2 : b ∈ s.known
      · by_cases h3 : b ∈ bad
        · have e : TM.startAll r bad (b :: bs) s = { s with dead := true } := by simp [TM.startAll, h1, h2, h3]
          rw [e]
          refine ⟨[], by simp, by simp, rfl, rfl, rfl, rfl, List.nodup_nil, by simp, fun hb => ?_⟩
          exact absurd h3 (hb b List.mem_cons_self h2 h1)
        · have e : TM.startAll r bad (b :: bs) s = TM.startAll r bad bs
              { s with active := s.active ++ [b], running := s.running ++ [(r, b)] } := by
            simp [TM.startAll, h1, h2, h3]
          rw [e]
          obtain ⟨new, a1, a2, a3, a4, a5, a6, a7, a8, a9⟩ := ih
            { s with active := s.active ++ [b], running := s.running ++ [(r, b)] }
            (by
              show (s.active ++ [b]).Nodup
              rw [List.nodup_append]
              exact ⟨hn, by simp, fun x hx y hy => by
                simp only [List.mem_singleton] at hy
                rintro rfl
                rw [hy] at hx; exact h1 hx⟩)
            (by
              show (s.active ++ [b]).Perm ((s.running ++ [(r, b)]).map (·.2) ++ s.notifying)
              rw [List.map_append, List.append_assoc]
              refine (hp.append_right [b]).trans ?_
              rw [List.append_assoc]
              exact List.Perm.append_left _ List.perm_append_comm)
          refine ⟨b :: new, ?_, ?_, a3, a4, a5, a6, ?_, fun x hx => ?_, fun hb => ?_⟩
          · rw [a1]; simp
          · rw [a2]; simp
          · rw [List.nodup_cons]
            refine ⟨fun hbn => ?_, a7⟩
            exact (a8 b hbn).2.2.1 (by simp)
          · rcases List.mem_cons.mp hx with rfl | hx
            · exact ⟨List.mem_cons_self, h2, h1, h3⟩
            · obtain ⟨c1, c2, c3, c4⟩ := a8 x hx
              exact ⟨List.mem_cons_of_mem _ c1, c2, fun hh => c3 (by simp [hh]), c4⟩
          · obtain ⟨d1, d2⟩ := a9 fun x hx hk ha => hb x (List.mem_cons_of_mem _ hx) hk (fun hh => ha (by simp [hh]))
            refine ⟨d1, fun x hx hk ha => ?_⟩
            by_cases hxb : x = b
            · rw [hxb]; exact List.mem_cons_self
            · rcases List.mem_cons.mp hx with rfl | hx
              · exact absurd rfl hxb
              · refine List.mem_cons_of_mem _ (d2 x hx hk ?_)
                simp only [List.mem_append, List.mem_singleton]
                rintro (hh | hh)
                · exact ha hh
                · exact hxb hh
      · have e : TM.startAll r bad (b :: bs) s = TM.startAll r bad bs s := by simp [TM.startAll, h1, h2]
        rw [e]
        obtain ⟨new, a1, a2, a3, a4, a5, a6, a7, a8, a9⟩ := ih s hn hp
        refine ⟨new, a1, a2, a3, a4, a5, a6, a7, fun x hx => ?_, fun hb => ?_⟩
        · obtain ⟨c1, c2⟩ := a8 x hx
          exact ⟨List.mem_cons_of_mem _ c1, c2⟩
        · obtain ⟨d1, d2⟩ := a9 fun x hx => hb x (List.mem_cons_of_mem _ hx)
          refine ⟨d1, fun x hx hk ha => ?_⟩
          rcases List.mem_cons.mp hx with rfl | hx
          · exact absurd hk h2
          · exact d2 x hx hk ha

theorem finish_perm {s : TM} (h : s.active.Perm (s.running.map (·.2) ++ s.notifying)) (r : Nat) (b : BufId) :
    s.active.Perm ((s.running.erase (r, b)).map (·.2) ++ (if (r, b) ∈ s.running then s.notifying ++ [b] else s.notifying)) := by
  by_cases hm : (r, b) ∈ s.running
  · rw [if_pos hm]
    refine h.trans ?_
    have h1 : (s.running.map (·.2)).Perm (b :: (s.running.erase (r, b)).map (·.2)) := by
      have := (List.perm_cons_erase hm).map (·.2)
      simpa using this
    refine (h1.append_right _).trans ?_
    rw [← List.append_assoc]
    simp only [List.cons_append]
    exact List.perm_append_singleton b _ |>.symm
  · rw [if_neg hm, List.erase_of_not_mem hm]; exact h

theorem TM.Inv.step {s : TM} (h : s.Inv) (e : TEv) : (s.step e).Inv := by
  unfold TM.step
  by_cases hd : s.dead = true
  · rw [if_pos hd]
    cases e with
    | finish r b =>
      exact {
        nodup := h.nodup
        perm := finish_perm h.perm r b
        fresh := fun x hx => h.fresh x (List.mem_of_mem_erase hx)
        opn := h.opn
        waits := fun hh => by simp only [hd] at hh; cases hh }
    | _ => exact h
  · rw [if_neg hd]
    have hdf : s.dead = false := by simpa using hd
    cases e with
    | created b => exact ⟨h.nodup, h.perm, h.fresh, h.opn, h.waits⟩
    | removed b => exact ⟨h.nodup, h.perm, h.fresh, h.opn, h.waits⟩
    | finish r b =>
      exact {
        nodup := h.nodup
        perm := finish_perm h.perm r b
        fresh := fun x hx => h.fresh x (List.mem_of_mem_erase hx)
        opn := h.opn
        waits := fun hh x hx => h.waits hh x (List.mem_of_mem_erase hx) }
    | notify b =>
      show TM.Inv (if b ∈ s.notifying then { s with notifying := s.notifying.erase b, active := s.active.erase b } else s)
      by_cases hb : b ∈ s.notifying
      · rw [if_pos hb]
        refine ⟨h.nodup.erase b, ?_, h.fresh, h.opn, h.waits⟩
        have hnr : b ∉ s.running.map (·.2) := by
          have := (h.perm.nodup_iff).mp h.nodup
          rw [List.nodup_append] at this
          intro hh
          exact this.2.2 b hh b hb rfl
        have := h.perm.erase b
        rwa [List.erase_append_right _ hnr] at this
      · rw [if_neg hb]; exact h
    | respond r =>
      show TM.Inv (if s.running.any (fun x => x.1 == r) then s else { s with open_ := s.open_.filter (· ≠ r) })
      by_cases hr : (s.running.any (fun x => x.1 == r)) = true
      · rw [if_pos hr]; exact h
      · rw [if_neg hr]
        refine ⟨h.nodup, h.perm, h.fresh, ⟨h.opn.1.filter _, fun x hx => h.opn.2 x (List.mem_filter.mp hx).1⟩, fun hh x hx => ?_⟩
        rw [List.mem_filter]
        refine ⟨h.waits hdf x hx, ?_⟩
        simp only [List.any_eq_true, not_exists, not_and] at hr
        have := hr x hx
        simpa using this
    | trigger ids bad =>
      obtain ⟨new, a1, a2, a3, a4, a5, a6, a7, a8, a9⟩ := startAll_spec s.requests bad ids s h.nodup h.perm
      simp only
      generalize hs : TM.startAll s.requests bad ids s = s' at *
      have hfr : s.requests ∉ s.open_ := fun hh => Nat.lt_irrefl _ (h.opn.2 _ hh)
      exact {
        nodup := by
          show s'.active.Nodup
          rw [a2, List.nodup_append]
          exact ⟨h.nodup, a7, fun x hx y hy hxy => (a8 y hy).2.2.1 (hxy ▸ hx)⟩
        perm := by
          show s'.active.Perm (s'.running.map (·.2) ++ s'.notifying)
          rw [a1, a2, a3, List.map_append, List.map_map]
          have : List.map ((fun x => x.2) ∘ fun b => (s.requests, b)) new = new := by
            simp [Function.comp_def]
          rw [this, List.append_assoc]
          refine (h.perm.append_right new).trans ?_
          rw [List.append_assoc]
          exact List.Perm.append_left _ List.perm_append_comm
        fresh := fun x hx => by
          show x.1 < s.requests + 1
          have hx' : x ∈ s'.running := hx
          rw [a1, List.mem_append] at hx'
          rcases hx' with hx' | hx'
          · have := h.fresh x hx'; omega
          · obtain ⟨b, _, rfl⟩ := List.mem_map.mp hx'; simp
        opn := by
          show (if s'.dead then s.open_ else s.open_ ++ [s.requests]).Nodup ∧
            ∀ r ∈ (if s'.dead then s.open_ else s.open_ ++ [s.requests]), r < s.requests + 1
          split
          · exact ⟨h.opn.1, fun r hr => Nat.lt_succ_of_lt (h.opn.2 r hr)⟩
          · refine ⟨?_, fun r hr => ?_⟩
            · rw [List.nodup_append]
              refine ⟨h.opn.1, by simp, fun x hx y hy hxy => ?_⟩
              simp only [List.mem_singleton] at hy
              rw [hxy, hy] at hx
              exact hfr hx
            · rw [List.mem_append] at hr
              rcases hr with hr | hr
              · exact Nat.lt_succ_of_lt (h.opn.2 r hr)
              · simp only [List.mem_singleton] at hr; omega
        waits := fun hh x hx => by
          have hh' : s'.dead = false := hh
          have hx' : x ∈ s'.running := hx
          show x.1 ∈ (if s'.dead then s.open_ else s.open_ ++ [s.requests])
          rw [hh', if_neg (by simp), List.mem_append]
          rw [a1, List.mem_append] at hx'
          rcases hx' with hx' | hx'
          · exact Or.inl (h.waits hdf x hx')
          · obtain ⟨b, _, rfl⟩ := List.mem_map.mp hx'; simp }

theorem TM.inv_init : TM.init.Inv := ⟨by simp [TM.init], by simp [TM.init], by simp [TM.init], by simp [TM.init], by simp [TM.init]⟩

theorem TM.inv_run (es : List TEv) : ∀ s : TM, s.Inv → (s.run es).Inv := by
  induction es with
  | nil => intro s h; exact h
  | cons e es ih => intro s h; exact ih _ (h.step e)

/-- C16: whatever the requests, completions, additions and removals, a buffer is never uploaded by two tasks
at once. -/
theorem C16_exclusive (es : List TEv) : ((TM.init.run es).running.map (·.2)).Nodup := by
  have h := TM.inv_run es _ TM.inv_init
  have := (h.perm.nodup_iff).mp h.nodup
  exact (List.nodup_append.mp this).1

/-- C16: a request starts exactly one upload for each distinct buffer it names that is known and not active
(being uploaded, or just uploaded with the completion still to be processed), and nothing else. -/
theorem C16_starts (es : List TEv) (ids : List BufId) (hd : (TM.init.run es).dead = false) :
    let s := TM.init.run es
    let t := s.step (.trigger ids [])
    ∃ new : List BufId, new.Nodup ∧ t.running = s.running ++ new.map (fun b => (s.requests, b)) ∧
      t.active = s.active ++ new ∧
      ∀ b, b ∈ new ↔ b ∈ ids ∧ b ∈ s.known ∧ b ∉ s.running.map (·.2) ∧ b ∉ s.notifying := by
  intro s t
  have h : s.Inv := TM.inv_run es _ TM.inv_init
  obtain ⟨new, a1, a2, a3, a4, a5, a6, a7, a8, a9⟩ := startAll_spec s.requests [] ids s h.nodup h.perm
  have ht : t = { TM.startAll s.requests [] ids s with requests := s.requests + 1, open_ := if (TM.startAll s.requests [] ids s).dead then s.open_ else s.open_ ++ [s.requests] } := by
    show s.step (.trigger ids []) = _
    unfold TM.step
    rw [if_neg (by rw [hd]; simp)]
  have hact : ∀ b, b ∈ s.active ↔ b ∈ s.running.map (·.2) ∨ b ∈ s.notifying := by
    intro b
    rw [h.perm.mem_iff, List.mem_append]
  refine ⟨new, a7, by rw [ht]; exact a1, by rw [ht]; exact a2, fun b => ⟨fun hb => ?_, fun hb => ?_⟩⟩
  · obtain ⟨c1, c2, c3, _⟩ := a8 b hb
    rw [hact] at c3
    exact ⟨c1, c2, fun hh => c3 (Or.inl hh), fun hh => c3 (Or.inr hh)⟩
  · obtain ⟨c1, c2, c3, c4⟩ := hb
    refine (a9 fun _ _ _ _ => by simp).2 b c1 c2 ?_
    rw [hact]
    rintro (hh | hh)
    · exact c3 hh
    · exact c4 hh

/-- C16: only requests start uploads. -/
theorem C16_only_requests (s : TM) (e : TEv) (he : ∀ ids bad, e ≠ .trigger ids bad) :
    ∀ x ∈ (s.step e).running, x ∈ s.running := by
  intro x hx
  unfold TM.step at hx
  cases e with
  | trigger ids bad => exact absurd rfl (he ids bad)
  | finish r b =>
    split at hx <;> exact List.mem_of_mem_erase hx
  | notify b =>
    simp only at hx
    (repeat' split at hx) <;> exact hx
  | respond r =>
    simp only at hx
    (repeat' split at hx) <;> exact hx
  | created b => split at hx <;> exact hx
  | removed b => split at hx <;> exact hx

/-- C16: a request is answered only when every upload it started has ended: as long as one of its uploads is
running the request is open, and `respond` leaves it open. -/
theorem C16_response (es : List TEv) (r : Nat) (b : BufId) (hd : (TM.init.run es).dead = false)
    (hr : (r, b) ∈ (TM.init.run es).running) :
    r ∈ (TM.init.run es).open_ ∧ r ∈ ((TM.init.run es).step (.respond r)).open_ := by
  have h := TM.inv_run es _ TM.inv_init
  have h1 := h.waits hd _ hr
  refine ⟨h1, ?_⟩
  have hany : ((TM.init.run es).running.any fun x => x.1 == r) = true := by
    rw [List.any_eq_true]; exact ⟨_, hr, by simp⟩
  have : (TM.init.run es).step (.respond r) = TM.init.run es := by
    unfold TM.step
    rw [if_neg (by rw [hd]; simp)]
    show (if (TM.init.run es).running.any (fun x => x.1 == r) then TM.init.run es else _) = _
    rw [if_pos hany]
  rw [this]; exact h1

/-- C16: once its uploads have ended (at once if it started none) a request can be answered. -/
theorem C16_answered (s : TM) (r : Nat) (hd : s.dead = false) (h : ∀ x ∈ s.running, x.1 ≠ r) :
    r ∉ (s.step (.respond r)).open_ := by
  have hany : ¬ ((s.running.any fun x => x.1 == r) = true) := by
    rw [List.any_eq_true]
    rintro ⟨x, hx, hh⟩
    exact h x hx (by simpa using hh)
  unfold TM.step
  rw [if_neg (by rw [hd]; simp)]
  show r ∉ (if s.running.any (fun x => x.1 == r) then s else { s with open_ := s.open_.filter (· ≠ r) }).open_
  rw [if_neg hany]
  simp

/-- C16: after the completion message is processed the buffer can be uploaded again. -/
theorem C16_again (es : List TEv) (b : BufId) (hd : (TM.init.run es).dead = false)
    (hn : b ∈ (TM.init.run es).notifying) (hk : b ∈ (TM.init.run es).known) :
    ((TM.init.run es).requests, b) ∈ (((TM.init.run es).step (.notify b)).step (.trigger [b] [])).running := by
  have h := TM.inv_run es _ TM.inv_init
  have e1 : (TM.init.run es).step (.notify b) = TM.init.run (es ++ [.notify b]) := by
    simp [TM.run, List.foldl_append]
  have e2 : (TM.init.run es).step (.notify b) = { TM.init.run es with notifying := (TM.init.run es).notifying.erase b, active := (TM.init.run es).active.erase b } := by
    unfold TM.step
    rw [if_neg (by rw [hd]; simp)]
    show (if b ∈ (TM.init.run es).notifying then _ else _) = _
    rw [if_pos hn]
  have hd2 : (TM.init.run (es ++ [.notify b])).dead = false := by rw [← e1, e2]; exact hd
  obtain ⟨new, _, h2, _, h4⟩ := C16_starts (es ++ [.notify b]) [b] hd2
  rw [← e1] at h2 h4
  rw [h2, List.mem_append]
  right
  rw [e2] at h4 ⊢
  have hnd := (h.perm.nodup_iff).mp h.nodup
  rw [List.nodup_append] at hnd
  rw [List.mem_map]
  refine ⟨b, (h4 b).mpr ⟨by simp, hk, fun hh => hnd.2.2 b hh b hn rfl, ?_⟩, rfl⟩
  exact hnd.2.1.not_mem_erase

/-- The window between the end of an upload and its completion message: the request has been answered, the
buffer is not being uploaded, and a new request for it starts nothing. -/
theorem C16_window :
    let s := TM.init.run [.created 1, .trigger [1] [], .finish 0 1, .respond 0]
    s.open_ = [] ∧ s.running = [] ∧ (s.step (.trigger [1] [])).running = [] := by decide

example : (TM.init.run [.created 1, .created 2, .trigger [1, 3, 1, 2] [], .trigger [2] [], .finish 0 1, .notify 1,
    .trigger [1, 2] []]).running = [(0, 2), (2, 1)] := by decide

end Verif.Upload
