import Verif.Tasks.Progress

/-!
# C71: once the tasks are at rest, every trigger buffer can be uploaded again
-/

namespace Verif.Tasks

/-- The triggered uploads of `l` that are not over go on in `l'`. -/
def GoOn (l l' : List Task) : Prop :=
  ∀ x ∈ l, x.kind = .trigger → x.phase ≠ .gone → ∃ y ∈ l', y.kind = .trigger ∧ y.buf = x.buf ∧ y.phase ≠ .gone

theorem GoOn.refl (l : List Task) : GoOn l l := fun x hx hk hp => ⟨x, hx, hk, rfl, hp⟩

theorem GoOn.trans {a b c : List Task} (h : GoOn a b) (h' : GoOn b c) : GoOn a c := by
  intro x hx hk hp
  obtain ⟨y, hy, h1, h2, h3⟩ := h x hx hk hp
  obtain ⟨z, hz, g1, g2, g3⟩ := h' y hy h1 h3
  exact ⟨z, hz, g1, g2.trans h2, g3⟩

theorem GoOn.add (l m : List Task) : GoOn l (l ++ m) := fun x hx hk hp => ⟨x, List.mem_append_left _ hx, hk, rfl, hp⟩

theorem GoOn.set {l : List Task} {t : Nat} {x : Task} (y : Task) (hx : l[t]? = some x)
    (h : x.kind = .trigger → x.phase ≠ .gone → y.kind = .trigger ∧ y.buf = x.buf ∧ y.phase ≠ .gone) : GoOn l (l.set t y) := by
  intro z hz hk hp
  obtain ⟨i, hi⟩ := List.mem_iff_getElem?.1 hz
  by_cases hit : i = t
  · subst hit
    rw [hx] at hi; cases hi
    obtain ⟨h1, h2, h3⟩ := h hk hp
    refine ⟨y, List.mem_iff_getElem?.2 ⟨i, ?_⟩, h1, h2, h3⟩
    rw [List.getElem?_set_self]
    rcases Nat.lt_or_ge i l.length with h' | h'
    · exact h'
    · rw [List.getElem?_eq_none h'] at hx; cases hx
  · exact ⟨z, List.mem_iff_getElem?.2 ⟨i, by rw [List.getElem?_set_ne (Ne.symm hit)]; exact hi⟩, hk, rfl, hp⟩

theorem GoOn.shut (s : St) (t : Nat) : GoOn s.tasks (shutTask s t).tasks := by
  unfold shutTask
  split
  · exact .refl _
  · rename_i x hx; exact .set _ hx fun h1 h2 => ⟨h1, rfl, h2⟩

theorem GoOn.spawn (s : St) (x : Task) : GoOn s.tasks (spawn s x).tasks := by
  unfold Tasks.spawn
  dsimp only
  split
  · exact (GoOn.shut s _).trans (.add _ _)
  · exact .add _ _

theorem spawn_mem (s : St) (x : Task) : x ∈ (spawn s x).tasks := by simp [spawn]

theorem shut_active (s : St) (t : Nat) : (shutTask s t).active = s.active := by
  unfold shutTask setTask; split <;> rfl

theorem spawn_active (s : St) (x : Task) : (spawn s x).active = s.active := by
  unfold Tasks.spawn
  dsimp only
  split
  · exact shut_active ..
  · rfl

theorem answered_gone (R : Nat) (x : Task) (ok : Bool) (hk : x.kind = .trigger) (hp : x.phase ≠ .gone) : answered R x ok ≠ .gone := by
  have hn : ∀ m, nextPhase R x.kind m ≠ .gone := by
    intro m; rw [hk]; cases m <;> simp [nextPhase]
  unfold answered
  split
  · split
    · exact hn _
    · split
      · exact hn _
      · simp
  · exact hp

theorem resolve_goOn (R : Nat) (s : St) (m : Msg) (ok : Bool) : GoOn s.tasks (resolve R s m ok).tasks ∧ (resolve R s m ok).active = s.active := by
  cases m with
  | stats => simp only [resolve]; split <;> exact ⟨.refl _, rfl⟩
  | logs t =>
    simp only [resolve]
    split
    · exact ⟨.refl _, rfl⟩
    · rename_i x hx
      exact ⟨.set _ hx fun h1 h2 => ⟨h1, rfl, answered_gone R x ok h1 h2⟩, rfl⟩

/-- Every buffer that is held to be uploading has a triggered upload that is not over. -/
def Holding (s : St) : Prop := ∀ b ∈ s.active, ∃ x ∈ s.tasks, x.kind = .trigger ∧ x.buf = b ∧ x.phase ≠ .gone

theorem Holding.goOn {s s' : St} (h : Holding s) (ha : s'.active = s.active) (ht : GoOn s.tasks s'.tasks) : Holding s' := by
  intro b hb
  rw [ha] at hb
  obtain ⟨x, hx, h1, h2, h3⟩ := h b hb
  obtain ⟨y, hy, g1, g2, g3⟩ := ht x hx h1 h3
  exact ⟨y, hy, g1, g2.trans h2, g3⟩

theorem Holding.trigOne {R : Nat} {s : St} (h : Holding s) (p : Nat × Nat) : Holding (trigOne R s p) := by
  unfold Tasks.trigOne
  split
  · exact h
  · split
    · intro b hb
      dsimp only at hb ⊢
      rcases List.mem_cons.1 hb with hb | hb
      · refine ⟨_, spawn_mem s _, rfl, hb.symm, ?_⟩
        cases p.2 <;> simp [startPhase]
      · exact (h.goOn (spawn_active s _) (.spawn s _)) b hb
    · exact h

theorem Holding.event {s : St} (h : Holding s) (e : Event) : Holding (handleEvent s e) := by
  cases e with
  | contCreated id => exact h.goOn (spawn_active s _) (GoOn.spawn s _)
  | trigCreated id => exact h
  | removed id =>
    simp only [handleEvent]
    split
    · rename_i t _
      exact h.goOn (shut_active { s with trigBufs := s.trigBufs.filter (· ≠ id) } t) (GoOn.shut { s with trigBufs := s.trigBufs.filter (· ≠ id) } t)
    · exact h
  | streamAdded =>
    simp only [handleEvent]
    split
    · exact h.goOn (shut_active ..) ((GoOn.shut s _).trans (.add _ _))
    · exact h.goOn rfl (.add _ _)
  | streamRemoved =>
    simp only [handleEvent]
    split
    · exact h.goOn (shut_active ..) (GoOn.shut s _)
    · exact h

theorem Holding.step {R : Nat} {s s' : St} {l : Label} (h : Holding s) (hs : step R s l = some s') : Holding s' := by
  cases l with
  | down =>
    simp only [Tasks.step] at hs
    split at hs <;> cases hs
    have : ∀ (ms : List Msg) (s : St), Holding s → Holding (ms.foldl (fun s m => resolve R s m false) s) := by
      intro ms
      induction ms with
      | nil => intro s h; exact h
      | cons m ms ih => intro s h; exact ih _ (h.goOn (resolve_goOn R s m false).2 (resolve_goOn R s m false).1)
    exact this s.sent s h
  | answer m ok =>
    simp only [Tasks.step] at hs
    split at hs <;> cases hs
    exact h.goOn (resolve_goOn R { s with sent := s.sent.erase m } m ok).2 (resolve_goOn R { s with sent := s.sent.erase m } m ok).1
  | intent =>
    simp only [Tasks.step] at hs
    cases hs
    exact h.goOn rfl (.add _ _)
  | record t =>
    simp only [Tasks.step] at hs
    split at hs
    · rename_i x hx
      split at hs <;> cases hs
      exact h.goOn rfl (.set _ hx fun h1 _ => ⟨h1, rfl, by simp⟩)
    · cases hs
  | uEvent =>
    simp only [Tasks.step] at hs
    split at hs
    · rename_i e _
      split at hs <;> cases hs
      exact Holding.event (s := { s with evQ := none }) h e
    · cases hs
  | uTrigger =>
    simp only [Tasks.step] at hs
    split at hs
    · rename_i req _
      split at hs <;> cases hs
      have : ∀ (ps : List (Nat × Nat)) (s : St), Holding s → Holding (ps.foldl (Tasks.trigOne R) s) := by
        intro ps
        induction ps with
        | nil => intro s h; exact h
        | cons p ps ih => intro s h; exact ih _ (h.trigOne p)
      exact this req _ h
    · cases hs
  | uDone t =>
    simp only [Tasks.step] at hs
    split at hs
    · rename_i x hx
      split at hs <;> cases hs
      intro b hb
      obtain ⟨hb1, hb2⟩ := List.mem_filter.1 hb
      have hne : b ≠ x.buf := by simpa using hb2
      obtain ⟨z, hz, h1, h2, h3⟩ := h b hb1
      obtain ⟨i, hi⟩ := List.mem_iff_getElem?.1 hz
      have hit : i ≠ t := by
        intro he; subst he
        rw [hx] at hi; cases hi
        exact hne h2.symm
      exact ⟨z, List.mem_iff_getElem?.2 ⟨i, by simp only [setTask]; rw [List.getElem?_set_ne (Ne.symm hit)]; exact hi⟩, h1, h2, h3⟩
    · cases hs
  | tPut t =>
    simp only [Tasks.step] at hs
    split at hs
    · rename_i x hx
      split at hs
      · split at hs <;> cases hs
        exact h.goOn rfl (.set _ hx fun h1 _ => ⟨h1, rfl, by simp⟩)
      · cases hs
    · cases hs
  | tWake t =>
    simp only [Tasks.step] at hs
    split at hs
    · rename_i x hx
      split at hs <;> cases hs
      exact h.goOn rfl (.set _ hx fun h1 _ => ⟨h1, rfl, by simp⟩)
    · cases hs
  | tCancel t =>
    simp only [Tasks.step] at hs
    split at hs
    · rename_i x hx
      split at hs
      · rename_i hc
        cases hs
        exact h.goOn rfl (.set _ hx fun h1 _ => by simp [cancellable, h1] at hc)
      · cases hs
    · cases hs
  | _ =>
    simp only [Tasks.step] at hs
    repeat' split at hs
    all_goals first | cases hs; done | (cases hs; exact h) | (cases hs; split <;> exact h)

theorem Holding.run {R : Nat} : ∀ (ls : List Label) {s s' : St}, Holding s → run R s ls = some s' → Holding s' := by
  intro ls
  induction ls with
  | nil => intro s s' h hr; cases hr; exact h
  | cons l ls ih =>
    intro s s' h hr
    simp only [Tasks.run] at hr
    split at hr
    · rename_i s1 h1; exact ih (h.step h1) hr
    · cases hr

/-- **C71.** When everything is at rest no buffer is held to be uploading any more: the next request for a trigger buffer is carried out. -/
theorem C71_free (R : Nat) (s : St) (hr : Reach R s) (hq : Quiet s) : s.active = [] := by
  have hi := hr.inv
  obtain ⟨ls, hl⟩ := hr
  have h : Holding s := Holding.run ls (s := {}) (fun b hb => (nomatch hb)) hl
  cases ha : s.active with
  | nil => rfl
  | cons b bs =>
    obtain ⟨x, hx, h1, _, h3⟩ := h b (ha ▸ .head _)
    obtain ⟨i, hxi⟩ := List.mem_iff_getElem?.1 hx
    rcases hq.tasks x hx with h4 | h4
    · exact absurd h4 (hi.trig i x hxi h1)
    · exact absurd h4 h3

/-- **C71.** A request for trigger buffers at rest starts an upload of each of them. -/
theorem C71_again (R : Nat) (s s' : St) (hr : Reach R s) (hq : Quiet s) (b n : Nat) (hb : b ∈ s.trigBufs)
    (h : run R s [.matched [(b, n)], .uTrigger] = some s') :
    b ∈ s'.active ∧ ∃ x, s'.tasks[s.tasks.length]? = some x ∧ x.kind = .trigger ∧ x.buf = b ∧ x.phase ≠ .gone := by
  have ha := C71_free R s hr hq
  simp only [run, step, hq.l, hq.trigQ, hq.u, if_true] at h
  simp only [List.foldl_cons, List.foldl_nil, trigOne, ha, List.contains_nil, Bool.false_eq_true, if_false] at h
  rw [if_pos (by simpa using hb)] at h
  cases h
  refine ⟨.head _, ?_⟩
  unfold spawn
  dsimp only
  have hl : ∀ (s : St) t, (shutTask s t).tasks.length = s.tasks.length := by
    intro s t; unfold shutTask setTask; split <;> simp
  split
  · rename_i old _
    refine ⟨⟨.trigger, b, startPhase R n, false⟩, ?_, rfl, rfl, ?_⟩
    · rw [List.getElem?_append_right (by rw [hl]; exact Nat.le_refl _), hl]
      simp
    · cases n <;> simp [startPhase]
  · refine ⟨_, List.getElem?_concat_length, rfl, rfl, ?_⟩
    cases n <;> simp [startPhase]

/-- A state at rest after an upload, from which the same buffer is uploaded again. -/
example : ∃ s s', run 1 {} [.connect, .config [.trigCreated 7] true, .putEvent, .uEvent, .acked, .putConfig, .takeConfig, .matched [(7, 1)], .uTrigger, .tPut 0,
    .drain, .answer (.logs 0) true, .uDone 0] = some s ∧ s.a = .idle ∧ s.tasks.map (·.phase) = [.gone] ∧ 7 ∈ s.trigBufs ∧
    run 1 s [.matched [(7, 1)], .uTrigger] = some s' := ⟨_, _, rfl, rfl, rfl, by decide, rfl⟩

end Verif.Tasks
