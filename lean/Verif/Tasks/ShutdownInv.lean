import Verif.Tasks.Shutdown

/-!
# C77: invariants of the model with shutdown
-/

namespace Verif.Tasks

/-! ## How tasks change outside of the upload manager -/

/-- The tasks of `b` are those of `a`, perhaps further on, and perhaps new senders of intents. -/
structure Tr (a b : St) : Prop where
  back : ∀ (t : Nat) (x' : Task), b.tasks[t]? = some x' →
    (∃ x, a.tasks[t]? = some x ∧ x'.kind = x.kind ∧ x'.shut = x.shut ∧ (x.over = true → x'.over = true)) ∨
    x'.kind = .other
  fwd : ∀ (t : Nat) (x : Task), a.tasks[t]? = some x →
    ∃ x', b.tasks[t]? = some x' ∧ x'.kind = x.kind ∧ x'.shut = x.shut ∧ (x.over = true → x'.over = true)
  len : a.tasks.length ≤ b.tasks.length

theorem Tr.of_tasks {a b : St} (h : b.tasks = a.tasks) : Tr a b := by
  constructor
  · intro t x hx; rw [h] at hx; exact .inl ⟨x, hx, rfl, rfl, fun h => h⟩
  · intro t x hx; rw [h]; exact ⟨x, hx, rfl, rfl, fun h => h⟩
  · simp [h]

theorem Tr.congr {a b a' b' : St} (h : Tr a b) (ha : a'.tasks = a.tasks) (hb : b'.tasks = b.tasks) : Tr a' b' := by
  constructor
  · rw [ha, hb]; exact h.back
  · rw [ha, hb]; exact h.fwd
  · rw [ha, hb]; exact h.len

theorem Tr.trans {a b c : St} (h1 : Tr a b) (h2 : Tr b c) : Tr a c := by
  constructor
  · intro t x hx
    rcases h2.back t x hx with ⟨y, hy, k1, s1, o1⟩ | h
    · rcases h1.back t y hy with ⟨z, hz, k2, s2, o2⟩ | h
      · exact .inl ⟨z, hz, k1.trans k2, s1.trans s2, fun h => o1 (o2 h)⟩
      · exact .inr (k1.trans h)
    · exact .inr h
  · intro t x hx
    obtain ⟨y, hy, k1, s1, o1⟩ := h1.fwd t x hx
    obtain ⟨z, hz, k2, s2, o2⟩ := h2.fwd t y hy
    exact ⟨z, hz, k2.trans k1, s2.trans s1, fun h => o2 (o1 h)⟩
  · exact Nat.le_trans h1.len h2.len

theorem Tr.set {a : St} {t : Nat} {x y : Task} (hx : a.tasks[t]? = some x) (hk : y.kind = x.kind)
    (hs : y.shut = x.shut) (ho : x.over = true → y.over = true) : Tr a (setTask a t y) := by
  obtain ⟨hlt, _⟩ := List.getElem?_eq_some_iff.mp hx
  constructor
  · intro i z hz
    simp only [setTask, List.getElem?_set] at hz
    split at hz
    · rename_i he; subst he
      obtain rfl : y = z := by simpa [hlt] using hz
      exact .inl ⟨x, hx, hk, hs, ho⟩
    · exact .inl ⟨z, hz, rfl, rfl, fun h => h⟩
  · intro i z hz
    simp only [setTask, List.getElem?_set]
    split
    · rename_i he; subst he
      rw [hx] at hz
      obtain rfl := Option.some.inj hz
      exact ⟨y, by simp [hlt], hk, hs, ho⟩
    · exact ⟨z, hz, rfl, rfl, fun h => h⟩
  · simp [setTask]

theorem Tr.append {a b : St} (x : Task) (h : b.tasks = a.tasks ++ [x]) (hk : x.kind = .other) : Tr a b := by
  constructor
  · intro t z hz
    rw [h, List.getElem?_append] at hz
    split at hz
    · exact .inl ⟨z, hz, rfl, rfl, fun h => h⟩
    · rw [List.getElem?_singleton] at hz
      split at hz
      · obtain rfl := Option.some.inj hz; exact .inr hk
      · simp at hz
  · intro t z hz
    rw [h, List.getElem?_append_left (List.getElem?_eq_some_iff.mp hz).1]
    exact ⟨z, hz, rfl, rfl, fun h => h⟩
  · simp [h]

theorem over_phase (x : Task) (p : Phase) (h : x.phase = .ended ∨ x.phase = .gone → p = .ended ∨ p = .gone) :
    x.over = true → ({ x with phase := p } : Task).over = true := by
  simp only [Task.over, Bool.or_eq_true, beq_iff_eq]
  rintro ((h1 | h1) | h1)
  · exact .inl (.inl h1)
  · rcases h (.inl h1) with h | h <;> simp [h]
  · rcases h (.inr h1) with h | h <;> simp [h]

theorem tr_resolve (R : Nat) (s : St) (m : Msg) (ok : Bool) : Tr s (resolve R s m ok) := by
  unfold resolve
  split
  · split
    · exact Tr.of_tasks rfl
    · exact Tr.of_tasks rfl
  · split
    · exact Tr.of_tasks rfl
    · rename_i x hx
      refine Tr.set hx rfl rfl (over_phase x _ ?_)
      unfold answered
      rintro (h | h) <;> simp [h]

theorem tr_fails (R : Nat) : ∀ (ms : List Msg) (s : St), Tr s (ms.foldl (fun s m => resolve R s m false) s) := by
  intro ms
  induction ms with
  | nil => intro s; exact Tr.of_tasks rfl
  | cons m ms ih => intro s; exact (tr_resolve R s m false).trans (ih _)

/-- The steps of the upload manager. -/
def Label.ofU : Label → Bool
  | .uEvent | .uTrigger | .uDone _ | .uClosed => true
  | _ => false

/-- What the steps of the others leave alone. -/
structure Frame (l : Label) (s s' : St) : Prop where
  u : s'.u = s.u
  shutdowns : s'.shutdowns = s.shutdowns
  stream : s'.streamTask = s.streamTask
  ev : l ≠ .putEvent → s'.evQ = s.evQ
  trig : l ≠ .putTrigger → (∀ r, l ≠ .matched r) → s'.trigQ = s.trigQ
  tr : Tr s s'

theorem Frame.of {l : Label} {s s' : St} (h1 : s'.u = s.u) (h2 : s'.shutdowns = s.shutdowns)
    (h3 : s'.streamTask = s.streamTask) (h4 : l ≠ .putEvent → s'.evQ = s.evQ)
    (h5 : l ≠ .putTrigger → (∀ r, l ≠ .matched r) → s'.trigQ = s.trigQ) (h6 : s'.tasks = s.tasks) :
    Frame l s s' := ⟨h1, h2, h3, h4, h5, Tr.of_tasks h6⟩

theorem step_frame (R : Nat) (s s' : St) (l : Label) (hU : l.ofU = false) (hl : step R s l = some s') :
    Frame l s s' := by
  cases l with
  | uEvent => simp [Label.ofU] at hU
  | uTrigger => simp [Label.ofU] at hU
  | uDone t => simp [Label.ofU] at hU
  | uClosed => simp [Label.ofU] at hU
  | down =>
    simp only [step] at hl
    split at hl
    · obtain rfl := Option.some.inj hl
      obtain ⟨⟨ts, rx, e⟩, -⟩ := fails_spec R s.sent s
      have tr := tr_fails R s.sent s
      rw [e] at tr ⊢
      exact ⟨rfl, rfl, rfl, fun _ => rfl, fun _ _ => rfl, tr.congr rfl rfl⟩
    · simp at hl
  | answer m ok =>
    simp only [step] at hl
    split at hl
    · obtain rfl := Option.some.inj hl
      obtain ⟨ts, rx, e⟩ := resolve_eq R { s with sent := s.sent.erase m } m ok
      have tr := tr_resolve R { s with sent := s.sent.erase m } m ok
      rw [e] at tr ⊢
      exact ⟨rfl, rfl, rfl, fun _ => rfl, fun _ _ => rfl, tr.congr rfl rfl⟩
    · simp at hl
  | intent =>
    simp only [step] at hl
    obtain rfl := Option.some.inj hl
    exact ⟨rfl, rfl, rfl, fun _ => rfl, fun _ _ => rfl, Tr.append _ rfl rfl⟩
  | record t =>
    simp only [step] at hl
    split at hl
    · rename_i x hx
      split at hl
      · rename_i hp
        obtain rfl := Option.some.inj hl
        exact ⟨rfl, rfl, rfl, fun _ => rfl, fun _ _ => rfl, Tr.set hx rfl rfl (over_phase x _ (by simp [hp]))⟩
      · simp at hl
    · simp at hl
  | tPut t =>
    simp only [step] at hl
    split at hl
    · rename_i x hx
      split at hl
      · rename_i m n hp
        split at hl
        · obtain rfl := Option.some.inj hl
          exact ⟨rfl, rfl, rfl, fun _ => rfl, fun _ _ => rfl,
            (Tr.set (y := { x with phase := .waiting m n }) hx rfl rfl (over_phase x _ (by simp [hp]))).congr rfl rfl⟩
        · simp at hl
      · simp at hl
    · simp at hl
  | tWake t =>
    simp only [step] at hl
    split at hl
    · rename_i x hx
      split at hl
      · rename_i m n hp
        obtain rfl := Option.some.inj hl
        exact ⟨rfl, rfl, rfl, fun _ => rfl, fun _ _ => rfl, Tr.set hx rfl rfl (over_phase x _ (by simp [hp]))⟩
      · simp at hl
    · simp at hl
  | tCancel t =>
    simp only [step] at hl
    split at hl
    · rename_i x hx
      split at hl
      · obtain rfl := Option.some.inj hl
        exact ⟨rfl, rfl, rfl, fun _ => rfl, fun _ _ => rfl, Tr.set hx rfl rfl (over_phase x _ (by simp))⟩
      · simp at hl
    · simp at hl
  | putEvent =>
    simp only [step] at hl
    repeat' split at hl
    all_goals first
      | (obtain rfl := Option.some.inj hl; exact ⟨rfl, rfl, rfl, by simp, fun _ _ => rfl, Tr.of_tasks rfl⟩)
      | simp at hl
  | putTrigger =>
    simp only [step] at hl
    repeat' split at hl
    all_goals first
      | (obtain rfl := Option.some.inj hl; exact ⟨rfl, rfl, rfl, fun _ => rfl, by simp, Tr.of_tasks rfl⟩)
      | simp at hl
  | matched r =>
    simp only [step] at hl
    split at hl
    · obtain rfl := Option.some.inj hl
      refine ⟨?_, ?_, ?_, fun _ => ?_, fun _ h => absurd rfl (h r), Tr.of_tasks ?_⟩ <;> split <;> rfl
    · simp at hl
  | fResponse =>
    simp only [step] at hl
    split at hl
    · split at hl
      · obtain rfl := Option.some.inj hl
        refine ⟨?_, ?_, ?_, fun _ => ?_, fun _ _ => ?_, Tr.of_tasks ?_⟩ <;> split <;> rfl
      · simp at hl
    · simp at hl
  | _ =>
    simp only [step] at hl
    repeat' split at hl
    all_goals first
      | (obtain rfl := Option.some.inj hl; exact ⟨rfl, rfl, rfl, fun _ => rfl, fun _ _ => rfl, Tr.of_tasks rfl⟩)
      | simp at hl

/-! ## Every running upload can be stopped -/

/-- The upload manager holds the trigger for the shutdown of `t`. -/
def Held (s : St) (t : Nat) : Prop := (∃ p ∈ s.shutdowns, p.2 = t) ∨ s.streamTask = some t

/-- Every continuous or streamed upload that runs was told to stop or can be told (`gone`: the upload
manager is there no more). -/
def Own (s : St) (gone : Bool) : Prop :=
  ∀ (t : Nat) (x : Task), s.tasks[t]? = some x → x.kind = .continuous ∨ x.kind = .stream → x.over = false →
    x.shut = true ∨ (gone = false ∧ Held s t)

theorem Own.tr {s s' : St} {g : Bool} (h : Own s g) (tr : Tr s s') (h1 : s'.shutdowns = s.shutdowns)
    (h2 : s'.streamTask = s.streamTask) : Own s' g := by
  intro t x' hx hk ho
  rcases tr.back t x' hx with ⟨x, hx, k, sh, o⟩ | h
  · have hxo : x.over = false := by
      cases hc : x.over with
      | false => rfl
      | true => rw [o hc] at ho; simp at ho
    rcases h t x hx (by rw [← k]; exact hk) hxo with h | ⟨h, hh⟩
    · exact .inl (sh.trans h)
    · refine .inr ⟨h, ?_⟩
      unfold Held
      rw [h1, h2]; exact hh
  · rw [h] at hk; simp at hk

theorem shutTask_get (s : St) (t i : Nat) : (shutTask s t).tasks[i]? =
    (s.tasks[i]?).map fun x => if i = t then { x with shut := true } else x := by
  unfold shutTask
  split
  · rename_i h
    by_cases hi : i = t
    · subst hi; simp [h]
    · simp [hi]
  · rename_i x hx
    simp only [setTask, List.getElem?_set]
    obtain ⟨hlt, _⟩ := List.getElem?_eq_some_iff.mp hx
    by_cases hi : t = i
    · subst hi; rw [hx]; simp [hlt]
    · have : i ≠ t := fun h => hi h.symm
      simp [hi, this]

theorem shutAll_get : ∀ (ts : List Nat) (s : St) (i : Nat), (ts.foldl shutTask s).tasks[i]? =
    (s.tasks[i]?).map fun x => if i ∈ ts then { x with shut := true } else x := by
  intro ts
  induction ts with
  | nil => intro s i; simp
  | cons t ts ih =>
    intro s i
    rw [List.foldl_cons, ih, shutTask_get]
    cases s.tasks[i]? with
    | none => rfl
    | some x =>
      simp only [Option.map_some, Option.some.injEq, List.mem_cons]
      by_cases h1 : i = t <;> by_cases h2 : i ∈ ts <;> simp [h1, h2]

theorem shutAll_eq : ∀ (ts : List Nat) (s : St), ∃ tasks, ts.foldl shutTask s = { s with tasks := tasks } := by
  intro ts
  induction ts with
  | nil => intro s; exact ⟨s.tasks, rfl⟩
  | cons t ts ih =>
    intro s
    obtain ⟨a, ha⟩ := shutTask_eq s t
    obtain ⟨b, hb⟩ := ih (shutTask s t)
    exact ⟨b, by rw [List.foldl_cons, hb, ha]⟩

theorem keeps_shutAll : ∀ (ts : List Nat) (s : St), Keeps s (ts.foldl shutTask s) := by
  intro ts
  induction ts with
  | nil => intro s; exact Keeps.refl s
  | cons t ts ih => intro s; exact (keeps_shutTask s t).trans (ih _)

theorem Own.shutTask {s : St} {g : Bool} (h : Own s g) (t : Nat) : Own (shutTask s t) g := by
  intro i x hx hk ho
  rw [shutTask_get] at hx
  cases hi : s.tasks[i]? with
  | none => simp [hi] at hx
  | some y =>
    simp only [hi, Option.map_some, Option.some.injEq] at hx
    by_cases he : i = t
    · rw [if_pos he] at hx; subst hx; exact .inl rfl
    · rw [if_neg he] at hx; subst hx
      rcases h i y hi hk ho with h | ⟨h, hh⟩
      · exact .inl h
      · refine .inr ⟨h, ?_⟩
        obtain ⟨ts, e⟩ := shutTask_eq s t
        rw [e]; exact hh

def Keys (s : St) : Prop := (s.shutdowns.map (·.1)).Nodup

theorem keys_erase {m : List (Nat × Nat)} (id : Nat) (h : (m.map (·.1)).Nodup) :
    ((erase m id).map (·.1)).Nodup := by
  unfold erase
  exact h.sublist (List.Sublist.map _ List.filter_sublist)

theorem lookup_of_mem : ∀ (m : List (Nat × Nat)), (m.map (·.1)).Nodup → ∀ p ∈ m, lookup m p.1 = some p.2 := by
  intro m
  induction m with
  | nil => intro _ p hp; simp at hp
  | cons q m ih =>
    intro hn p hp
    simp only [List.map_cons, List.nodup_cons] at hn
    unfold lookup
    rw [List.find?_cons]
    rcases List.mem_cons.mp hp with rfl | hp
    · simp
    · have : q.1 ≠ p.1 := by
        intro he
        exact hn.1 (by rw [he]; exact List.mem_map_of_mem hp)
      simp only [this, decide_false]
      exact ih hn.2 p hp

/-- After the trigger of a buffer was used or replaced, everything else is still held. -/
theorem held_erase {s : St} (hn : Keys s) (id i : Nat) (h : ∃ p ∈ s.shutdowns, p.2 = i) :
    (∃ p ∈ erase s.shutdowns id, p.2 = i) ∨ lookup s.shutdowns id = some i := by
  obtain ⟨p, hp, rfl⟩ := h
  by_cases he : p.1 = id
  · right; subst he; exact lookup_of_mem _ hn p hp
  · left; exact ⟨p, List.mem_filter.mpr ⟨hp, by simp [he]⟩, rfl⟩

theorem own_spawn {s : St} (h : Own s false) (hn : Keys s) (x : Task) :
    Own (spawn s x) false ∧ Keys (spawn s x) := by
  constructor
  · intro i y hy hk ho
    unfold spawn at hy ⊢
    simp only [true_and] at hy ⊢
    cases hlk : lookup s.shutdowns x.buf with
    | none =>
      simp only [hlk, List.getElem?_append] at hy ⊢
      split at hy
      · rcases h i y hy hk ho with h | ⟨_, hh⟩
        · exact .inl h
        · right
          rcases hh with hh | hh
          · rcases held_erase hn x.buf i hh with ⟨p, hp, rfl⟩ | h
            · exact .inl ⟨p, List.mem_cons_of_mem _ hp, rfl⟩
            · rw [hlk] at h; simp at h
          · exact .inr hh
      · rename_i hlt
        rw [List.getElem?_singleton] at hy
        split at hy
        · right; exact .inl ⟨_, List.mem_cons_self, by simp only; omega⟩
        · simp at hy
    | some old =>
      simp only [hlk, List.getElem?_append] at hy ⊢
      obtain ⟨ts, e⟩ := shutTask_eq s old
      split at hy
      · have ho' := h.shutTask old
        rw [shutTask_get] at hy
        cases hi : s.tasks[i]? with
        | none => simp [hi] at hy
        | some z =>
          simp only [hi, Option.map_some, Option.some.injEq] at hy
          by_cases hio : i = old
          · rw [if_pos hio] at hy; subst hy; exact .inl rfl
          · rw [if_neg hio] at hy; subst hy
            rcases h i z hi hk ho with h | ⟨_, hh⟩
            · exact .inl h
            · right
              rw [e]
              rcases hh with hh | hh
              · rcases held_erase hn x.buf i hh with ⟨p, hp, rfl⟩ | h
                · exact .inl ⟨p, List.mem_cons_of_mem _ hp, rfl⟩
                · rw [hlk] at h; exact absurd (Option.some.inj h).symm hio
              · exact .inr hh
      · rename_i hlt
        rw [List.getElem?_singleton] at hy
        split at hy
        · right; refine .inl ⟨_, List.mem_cons_self, ?_⟩
          simp only [shutTask_len] at *
          omega
        · simp at hy
  · obtain ⟨ts, e, _⟩ := spawn_eq s x
    unfold Keys
    rw [e]
    simp only [List.map_cons, List.nodup_cons]
    refine ⟨?_, keys_erase _ hn⟩
    simp [erase]

theorem own_trigOne (R : Nat) {s : St} (h : Own s false) (hn : Keys s) (p : Nat × Nat) :
    Own (trigOne R s p) false ∧ Keys (trigOne R s p) := by
  unfold trigOne
  split
  · exact ⟨h, hn⟩
  · split
    · exact own_spawn h hn _
    · exact ⟨h, hn⟩

theorem own_trigAll (R : Nat) : ∀ (req : List (Nat × Nat)) (s : St), Own s false → Keys s →
    Own (req.foldl (trigOne R) s) false ∧ Keys (req.foldl (trigOne R) s) := by
  intro req
  induction req with
  | nil => intro s h hn; exact ⟨h, hn⟩
  | cons p req ih =>
    intro s h hn
    obtain ⟨h1, h2⟩ := own_trigOne R h hn p
    exact ih _ h1 h2

theorem own_handleEvent {s : St} (h : Own s false) (hn : Keys s) (e : Event) :
    Own (handleEvent s e) false ∧ Keys (handleEvent s e) := by
  cases e with
  | contCreated id => exact own_spawn h hn _
  | trigCreated id => exact ⟨h, hn⟩
  | removed id =>
    simp only [handleEvent]
    cases hl : lookup s.shutdowns id with
    | none => exact ⟨h, hn⟩
    | some t =>
      simp only
      refine ⟨?_, keys_erase id hn⟩
      intro i x hx hk ho
      have hx' : (shutTask { s with trigBufs := s.trigBufs.filter (· ≠ id) } t).tasks[i]? = some x := hx
      rw [shutTask_get] at hx'
      cases hi : s.tasks[i]? with
      | none => simp [hi] at hx'
      | some y =>
        simp only [hi, Option.map_some, Option.some.injEq] at hx'
        by_cases he : i = t
        · rw [if_pos he] at hx'; subst hx'; exact .inl rfl
        · rw [if_neg he] at hx'; subst hx'
          rcases h i y hi hk ho with h | ⟨_, hh⟩
          · exact .inl h
          · refine .inr ⟨rfl, ?_⟩
            rcases hh with hh | hh
            · rcases held_erase hn id i hh with hh | h
              · exact .inl hh
              · rw [hl] at h; exact absurd (Option.some.inj h).symm he
            · obtain ⟨ts, e⟩ := shutTask_eq { s with trigBufs := s.trigBufs.filter (· ≠ id) } t
              right; rw [e]; exact hh
  | streamAdded =>
    simp only [handleEvent]
    cases hl : s.streamTask with
    | none =>
      refine ⟨?_, hn⟩
      intro i x hx hk ho
      simp only [List.getElem?_append] at hx
      split at hx
      · rcases h i x hx hk ho with h | ⟨_, hh⟩
        · exact .inl h
        · rcases hh with hh | hh
          · exact .inr ⟨rfl, .inl hh⟩
          · rw [hl] at hh; simp at hh
      · rename_i hlt
        rw [List.getElem?_singleton] at hx
        split at hx
        · refine .inr ⟨rfl, .inr ?_⟩
          simp only [Option.some.injEq]
          omega
        · simp at hx
    | some old =>
      obtain ⟨ts, e⟩ := shutTask_eq s old
      refine ⟨?_, by simp only [Keys, e]; exact hn⟩
      intro i x hx hk ho
      simp only [List.getElem?_append] at hx
      split at hx
      · rw [shutTask_get] at hx
        cases hi : s.tasks[i]? with
        | none => simp [hi] at hx
        | some y =>
          simp only [hi, Option.map_some, Option.some.injEq] at hx
          by_cases he : i = old
          · rw [if_pos he] at hx; subst hx; exact .inl rfl
          · rw [if_neg he] at hx; subst hx
            rcases h i y hi hk ho with h | ⟨_, hh⟩
            · exact .inl h
            · rcases hh with hh | hh
              · refine .inr ⟨rfl, .inl ?_⟩
                simp only [e]; exact hh
              · rw [hl] at hh; exact absurd (Option.some.inj hh).symm he
      · rename_i hlt
        rw [List.getElem?_singleton] at hx
        split at hx
        · refine .inr ⟨rfl, .inr ?_⟩
          simp only [Option.some.injEq, shutTask_len] at *
          omega
        · simp at hx
  | streamRemoved =>
    simp only [handleEvent]
    cases hl : s.streamTask with
    | none => exact ⟨h, hn⟩
    | some t =>
      obtain ⟨ts, e⟩ := shutTask_eq s t
      refine ⟨?_, by simp only [Keys, e]; exact hn⟩
      intro i x hx hk ho
      have hx' : (shutTask s t).tasks[i]? = some x := hx
      rw [shutTask_get] at hx'
      cases hi : s.tasks[i]? with
      | none => simp [hi] at hx'
      | some y =>
        simp only [hi, Option.map_some, Option.some.injEq] at hx'
        by_cases he : i = t
        · rw [if_pos he] at hx'; subst hx'; exact .inl rfl
        · rw [if_neg he] at hx'; subst hx'
          rcases h i y hi hk ho with h | ⟨_, hh⟩
          · exact .inl h
          · rcases hh with hh | hh
            · refine .inr ⟨rfl, .inl ?_⟩
              simp only [e]; exact hh
            · rw [hl] at hh; exact absurd (Option.some.inj hh).symm he

theorem own_uStep (R : Nat) (s s' : St) (l : Label) (hU : l.ofU = true) (hl : step R s l = some s')
    (h : Own s false) (hn : Keys s) : Own s' false ∧ Keys s' := by
  cases l with
  | uEvent =>
    simp only [step] at hl
    split at hl
    · split at hl
      · obtain rfl := Option.some.inj hl
        exact own_handleEvent (s := { s with evQ := none }) h hn _
      · simp at hl
    · simp at hl
  | uTrigger =>
    simp only [step] at hl
    split at hl
    · split at hl
      · obtain rfl := Option.some.inj hl
        exact own_trigAll R _ { s with trigQ := none } h hn
      · simp at hl
    · simp at hl
  | uDone t =>
    simp only [step] at hl
    split at hl
    · rename_i x hx
      split at hl
      · obtain rfl := Option.some.inj hl
        exact ⟨Own.tr h ((Tr.set (y := { x with phase := .gone }) hx rfl rfl (over_phase x .gone (by simp))).congr rfl rfl) rfl rfl, hn⟩
      · simp at hl
    · simp at hl
  | uClosed =>
    simp only [step] at hl
    split at hl
    · split at hl
      · split at hl
        · obtain rfl := Option.some.inj hl; exact ⟨h, hn⟩
        · simp at hl
      · obtain rfl := Option.some.inj hl; exact ⟨h, hn⟩
    · simp at hl
  | _ => simp [Label.ofU] at hU

end Verif.Tasks
