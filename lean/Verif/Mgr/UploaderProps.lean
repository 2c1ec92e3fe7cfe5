import Verif.Mgr.Props
import Verif.Mgr.Uploader

/-
C117: every buffer is uploaded by exactly one task, its own.
-/
namespace Verif.Mgr

/-! ### Maps -/

theorem look_put_self (id : Id) (n : Nat) (l : List (Id × Nat)) : look id (put id n l) = some n := by
  simp [look, put]

theorem look_forget_self (id : Id) (l : List (Id × Nat)) : look id (forget id l) = none := by
  simp [look, forget, List.find?_eq_none]

theorem look_forget_ne {id k : Id} (h : k ≠ id) (l : List (Id × Nat)) : look k (forget id l) = look k l := by
  unfold look forget
  induction l with
  | nil => rfl
  | cons p l ih =>
    simp only [List.filter_cons]
    by_cases hp : p.1 = id
    · have hk : p.1 ≠ k := fun he => h (he.symm.trans hp)
      simp only [hp, ne_eq, not_true_eq_false, decide_false, Bool.false_eq_true, if_false, List.find?_cons]
      rw [ih]
      have : decide (id = k) = false := by simpa using Ne.symm h
      simp [this]
    · simp only [ne_eq, hp, not_false_eq_true, decide_true, if_true, List.find?_cons]
      by_cases hk : p.1 = k
      · simp [hk]
      · simp only [hk, decide_false]; exact ih

theorem look_put_ne {id k : Id} (h : k ≠ id) (n : Nat) (l : List (Id × Nat)) : look k (put id n l) = look k l := by
  have : look k (put id n l) = look k (forget id l) := by
    unfold put look
    have : decide (id = k) = false := by simpa using Ne.symm h
    simp [List.find?_cons, this]
  rw [this, look_forget_ne h]

/-! ### What was announced -/

/-- What a listener who takes the events at their word believes to exist. -/
structure Ann where
  bufs : List Entry
  stream : Option Handle

def Ann.step (a : Ann) : Event → Ann
  | .created id ty h => { a with bufs := a.bufs ++ [⟨id, ty, h⟩] }
  | .removed id => { a with bufs := erase id a.bufs }
  | .streamAdded h => { a with stream := some h }
  | .streamRemoved _ => { a with stream := none }

def ann (evs : List Event) : Ann := evs.foldl Ann.step ⟨[], none⟩

def Ann.handles (a : Ann) : List Handle := a.bufs.map (·.h) ++ a.stream.toList

/-- An event fits what was announced before. -/
def fits (a : Ann) : Event → Prop
  | .created id _ h => id ∉ ids a.bufs ∧ h ∉ a.handles
  | .streamAdded h => a.stream = none ∧ h ∉ a.handles
  | _ => True

def allFit : Ann → List Event → Prop
  | _, [] => True
  | a, e :: es => fits a e ∧ allFit (a.step e) es

theorem allFit_append (a : Ann) (x y : List Event) :
    allFit a (x ++ y) ↔ allFit a x ∧ allFit (x.foldl Ann.step a) y := by
  induction x generalizing a with
  | nil => simp [allFit]
  | cons e x ih => simp only [List.cons_append, allFit, ih, List.foldl_cons, and_assoc]

structure AnnOk (a : Ann) : Prop where
  ids : (ids a.bufs).Nodup
  handles : a.handles.Nodup

theorem annOk_step {a : Ann} (ha : AnnOk a) {e : Event} (he : fits a e) : AnnOk (a.step e) := by
  cases e with
  | created id ty h =>
    obtain ⟨h1, h2⟩ := he
    refine ⟨?_, ?_⟩
    · simp only [Ann.step, Verif.Mgr.ids, List.map_append, List.map_cons, List.map_nil]
      rw [List.nodup_append]
      refine ⟨ha.ids, by simp, ?_⟩
      intro x hx y hy hxy
      rw [List.mem_singleton.mp hy] at hxy
      exact h1 (hxy ▸ hx)
    · have hh := ha.handles
      simp only [Ann.handles, List.mem_append, not_or] at h2
      simp only [Ann.step, Ann.handles, List.map_append, List.map_cons, List.map_nil, List.append_assoc] at hh ⊢
      rw [List.nodup_append] at hh ⊢
      refine ⟨hh.1, ?_, ?_⟩
      · rw [List.nodup_append]
        refine ⟨by simp, hh.2.1, ?_⟩
        intro x hx y hy hxy
        rw [List.mem_singleton.mp hx] at hxy
        exact h2.2 (hxy ▸ hy)
      · intro x hx y hy hxy
        rcases List.mem_append.mp hy with hy | hy
        · rw [List.mem_singleton.mp hy] at hxy
          exact h2.1 (hxy ▸ hx)
        · exact hh.2.2 x hx y hy hxy
  | removed id =>
    refine ⟨nodup_erase ha.ids, ?_⟩
    refine List.Nodup.sublist ?_ ha.handles
    exact List.Sublist.append (List.Sublist.map _ List.filter_sublist) (List.Sublist.refl _)
  | streamAdded h =>
    obtain ⟨h1, h2⟩ := he
    refine ⟨ha.ids, ?_⟩
    have hh := ha.handles
    simp only [Ann.handles, h1, Option.toList_none, List.append_nil] at hh h2
    simp only [Ann.step, Ann.handles, Option.toList_some]
    rw [List.nodup_append]
    refine ⟨hh, by simp, ?_⟩
    intro x hx y hy hxy
    rw [List.mem_singleton.mp hy] at hxy
    exact h2 (hxy ▸ hx)
  | streamRemoved h =>
    refine ⟨ha.ids, ?_⟩
    refine List.Nodup.sublist ?_ ha.handles
    exact List.Sublist.append (List.Sublist.refl _) (by simp [Ann.step])

theorem annOk_fold (evs : List Event) : ∀ (a : Ann), AnnOk a → allFit a evs → AnnOk (evs.foldl Ann.step a) := by
  induction evs with
  | nil => intro a h _; exact h
  | cons e evs ih => intro a h hf; exact ih _ (annOk_step h hf.1) hf.2

theorem annOk_empty : AnnOk ⟨[], none⟩ := ⟨by simp [ids], by simp [Ann.handles]⟩

/-! ### What the buffer manager announces -/

theorem fold_removed (l : List Entry) : ∀ (a : Ann),
    (l.map fun e => Event.removed e.id).foldl Ann.step a =
      ⟨a.bufs.filter fun e => decide (e.id ∉ ids l), a.stream⟩ ∧ allFit a (l.map fun e => Event.removed e.id) := by
  induction l with
  | nil =>
    intro a
    refine ⟨?_, trivial⟩
    cases a
    simp only [ids, List.map_nil, List.not_mem_nil, not_false_eq_true, decide_true, List.foldl_nil]
    rw [List.filter_eq_self.mpr (by simp)]
  | cons x l ih =>
    intro a
    obtain ⟨h1, h2⟩ := ih (a.step (.removed x.id))
    refine ⟨?_, trivial, h2⟩
    rw [List.map_cons, List.foldl_cons, h1]
    simp only [Ann.step, erase, List.filter_filter, ids, List.map_cons]
    congr 1
    refine List.filter_congr fun e _ => ?_
    simp only [List.mem_cons, not_or, ne_eq]
    by_cases h : e.id = x.id <;> simp [h]

theorem fold_created (l : List Entry) : ∀ (a : Ann), (ids a.bufs).Nodup → (ids l).Nodup → (l.map (·.h)).Nodup →
    (∀ e ∈ l, e.id ∉ ids a.bufs ∧ e.h ∉ a.handles) →
    (l.map fun e => Event.created e.id e.ty e.h).foldl Ann.step a = ⟨a.bufs ++ l, a.stream⟩ ∧
    allFit a (l.map fun e => Event.created e.id e.ty e.h) := by
  induction l with
  | nil => intro a _ _ _ _; exact ⟨by simp, trivial⟩
  | cons x l ih =>
    intro a ha hi hh hd
    simp only [ids, List.map_cons, List.nodup_cons] at hi hh
    obtain ⟨hx1, hx2⟩ := hd x List.mem_cons_self
    have hids : (ids (a.step (.created x.id x.ty x.h)).bufs).Nodup := by
      simp only [Ann.step, ids, List.map_append, List.map_cons, List.map_nil]
      rw [List.nodup_append]
      refine ⟨ha, by simp, ?_⟩
      intro y hy z hz hyz
      rw [List.mem_singleton.mp hz] at hyz
      exact hx1 (hyz ▸ hy)
    obtain ⟨h1, h2⟩ := ih (a.step (.created x.id x.ty x.h)) hids hi.2 hh.2 (by
      intro e he
      obtain ⟨h3, h4⟩ := hd e (List.mem_cons_of_mem _ he)
      refine ⟨?_, ?_⟩
      · simp only [Ann.step, ids, List.map_append, List.map_cons, List.map_nil, List.mem_append, List.mem_singleton, not_or]
        exact ⟨h3, fun hc => hi.1 (hc ▸ List.mem_map.mpr ⟨e, he, rfl⟩)⟩
      · simp only [Ann.handles, List.mem_append, not_or] at h4
        simp only [Ann.step, Ann.handles, List.map_append, List.map_cons, List.map_nil, List.mem_append, List.mem_singleton, not_or]
        exact ⟨⟨h4.1, fun hc => hh.1 (hc ▸ List.mem_map.mpr ⟨e, he, rfl⟩)⟩, h4.2⟩)
    refine ⟨?_, ⟨hx1, hx2⟩, h2⟩
    simp only [List.map_cons, List.foldl_cons, h1]
    simp [Ann.step]

/-- What holds of the buffer manager after every operation. -/
structure MOk (m : Mgr) : Prop where
  nodup : (ids m.bufs).Nodup
  fit : allFit ⟨[], none⟩ m.events
  bufs : ∀ e, e ∈ (ann m.events).bufs ↔ e ∈ m.bufs
  stream : (ann m.events).stream = m.stream
  next : ∀ h ∈ (ann m.events).handles, h < m.next

theorem mok_init : MOk Mgr.init :=
  ⟨by simp [Mgr.init, ids], trivial, by simp [Mgr.init, ann], rfl, by simp [Mgr.init, ann, Ann.handles]⟩

theorem next_le_step (ok : Id → Bool) (a : Acc) (c : BufCfg) : a.next ≤ (cfgStep ok a c).1.next := by
  unfold cfgStep
  cases c.ty with
  | none => exact Nat.le_refl _
  | some ty =>
    simp only
    split
    · exact Nat.le_refl _
    · split
      · exact Nat.le_succ _
      · exact Nat.le_refl _

theorem next_le_loop (ok : Id → Bool) (cs : List BufCfg) : ∀ (a : Acc), a.next ≤ (cfgLoop ok a cs).1.next := by
  induction cs with
  | nil => intro a; exact Nat.le_refl _
  | cons c cs ih =>
    intro a
    have h1 := next_le_step ok a c
    unfold cfgLoop
    cases hs : cfgStep ok a c with
    | mk a' b =>
      rw [hs] at h1
      cases b with
      | true => exact Nat.le_trans h1 (ih a')
      | false => exact h1

theorem mok_update {m : Mgr} (hm : MOk m) (cfg : List BufCfg) (s : Bool) (ok : Id → Bool) (hd : (cfg.map (·.id)).Nodup) :
    MOk (update m cfg s ok).1 ∧ ∃ new, (update m cfg s ok).1.events = m.events ++ new := by
  unfold update
  have hnext := next_le_loop ok cfg ⟨m.bufs, [], [], m.next, m.files⟩
  cases hl : cfgLoop ok ⟨m.bufs, [], [], m.next, m.files⟩ cfg with
  | mk a b =>
    rw [hl] at hnext
    cases b with
    | false =>
      simp only [Bool.false_eq_true, if_false]
      exact ⟨⟨hm.nodup, hm.fit, hm.bufs, hm.stream, fun h hh => Nat.lt_of_lt_of_le (hm.next h hh) hnext⟩, [], by simp⟩
    | true =>
      simp only [if_true]
      have inv := loop_inv ok m.bufs hm.nodup m.next m.files cfg [] _ a (by simpa using hd)
        (loop_start m.bufs hm.nodup m.next m.files) hl
      rw [List.nil_append] at inv
      have haok := annOk_fold m.events _ annOk_empty hm.fit
      obtain ⟨hr1, hr2⟩ := fold_removed a.current (ann m.events)
      have hkeep : ∀ e, e ∈ ((ann m.events).bufs.filter fun e => decide (e.id ∉ ids a.current)) ↔
          e ∈ m.bufs ∧ e.id ∈ cfg.map (·.id) := by
        intro e
        rw [List.mem_filter, hm.bufs e]
        simp only [decide_not, Bool.not_eq_eq_eq_not, Bool.not_true, decide_eq_false_iff_not]
        constructor
        · rintro ⟨h1, h2⟩
          refine ⟨h1, ?_⟩
          refine Classical.byContradiction fun hc => h2 (List.mem_map.mpr ⟨e, (inv.current e).mpr ⟨h1, hc⟩, rfl⟩)
        · rintro ⟨h1, h2⟩
          refine ⟨h1, ?_⟩
          intro hc
          obtain ⟨x, hx, hxe⟩ := List.mem_map.mp hc
          exact ((inv.current x).mp hx).2 (hxe ▸ h2)
      have hsub : ∀ h, h ∈ (Ann.mk ((ann m.events).bufs.filter fun e => decide (e.id ∉ ids a.current)) (ann m.events).stream).handles →
          h < m.next := by
        intro h hh
        refine hm.next h ?_
        simp only [Ann.handles, List.mem_append] at hh ⊢
        rcases hh with hh | hh
        · left
          obtain ⟨e, he, rfl⟩ := List.mem_map.mp hh
          exact List.mem_map.mpr ⟨e, (List.mem_filter.mp he).1, rfl⟩
        · exact Or.inr hh
      obtain ⟨hc1, hc2⟩ := fold_created a.fresh
        ⟨(ann m.events).bufs.filter fun e => decide (e.id ∉ ids a.current), (ann m.events).stream⟩
        (List.Nodup.sublist (List.Sublist.map _ List.filter_sublist) haok.ids) inv.freshNodup inv.freshHandles (by
          intro e he
          obtain ⟨h1, _, h3, _⟩ := inv.fresh e he
          refine ⟨?_, ?_⟩
          · intro hc
            obtain ⟨x, hx, hxe⟩ := List.mem_map.mp hc
            exact h1 (hxe ▸ List.mem_map.mpr ⟨x, ((hkeep x).mp hx).1, rfl⟩)
          · intro hc
            exact Nat.lt_irrefl _ (Nat.lt_of_lt_of_le (hsub _ hc) h3))
      -- all handles announced so far are below the next one
      have hlt : ∀ h, h ∈ (Ann.mk (((ann m.events).bufs.filter fun e => decide (e.id ∉ ids a.current)) ++ a.fresh)
          (ann m.events).stream).handles → h < a.next := by
        intro h hh
        simp only [Ann.handles, List.map_append, List.mem_append] at hh
        rcases hh with (hh | hh) | hh
        · exact Nat.lt_of_lt_of_le (hsub h (by simp only [Ann.handles, List.mem_append]; exact Or.inl hh)) inv.next
        · obtain ⟨e, he, rfl⟩ := List.mem_map.mp hh
          exact (inv.fresh e he).2.2.2
        · exact Nat.lt_of_lt_of_le (hsub h (by simp only [Ann.handles, List.mem_append]; exact Or.inr hh)) inv.next
      have hall : ann (m.events ++ (a.current.map fun e => Event.removed e.id) ++
          (a.fresh.map fun e => Event.created e.id e.ty e.h)) =
          ⟨((ann m.events).bufs.filter fun e => decide (e.id ∉ ids a.current)) ++ a.fresh, (ann m.events).stream⟩ := by
        unfold ann at hr1 hc1 ⊢
        rw [List.foldl_append, List.foldl_append, hr1, hc1]
      have hfit : allFit ⟨[], none⟩ (m.events ++ (a.current.map fun e => Event.removed e.id) ++
          (a.fresh.map fun e => Event.created e.id e.ty e.h)) := by
        rw [allFit_append, allFit_append]
        refine ⟨⟨hm.fit, hr2⟩, ?_⟩
        unfold ann at hr1
        rw [List.foldl_append, hr1]
        exact hc2
      have hbufs : ∀ e, e ∈ ((ann m.events).bufs.filter fun e => decide (e.id ∉ ids a.current)) ++ a.fresh ↔ e ∈ a.updated := by
        intro e
        rw [List.mem_append, hkeep, inv.updated]
      have hst := hm.stream
      -- the stream buffer
      cases s with
      | true =>
        cases hs : m.stream with
        | some h =>
          simp only [resolveStream, List.append_nil]
          rw [hs] at hst
          refine ⟨⟨inv.updatedNodup, hfit, ?_, ?_, ?_⟩, _, List.append_assoc _ _ _⟩
          · intro e; rw [hall]; exact hbufs e
          · rw [hall]; exact hst
          · intro x hx
            rw [hall] at hx
            exact Nat.lt_succ_of_lt (hlt x hx)
        | none =>
          simp only [resolveStream]
          rw [hs] at hst
          have hall' : ann (m.events ++ (a.current.map fun e => Event.removed e.id) ++
              (a.fresh.map fun e => Event.created e.id e.ty e.h) ++ [Event.streamAdded a.next]) =
              ⟨((ann m.events).bufs.filter fun e => decide (e.id ∉ ids a.current)) ++ a.fresh, some a.next⟩ := by
            unfold ann at hall ⊢
            rw [List.foldl_append, hall]; rfl
          refine ⟨⟨inv.updatedNodup, ?_, ?_, ?_, ?_⟩, _, (List.append_assoc _ _ _).trans (List.append_assoc _ _ _)⟩
          · rw [allFit_append]
            refine ⟨hfit, ?_, trivial⟩
            unfold ann at hall hst
            rw [hall]
            refine ⟨hst, ?_⟩
            intro hc
            exact Nat.lt_irrefl _ (hlt _ hc)
          · intro e; rw [hall']; exact hbufs e
          · rw [hall']
          · intro x hx
            rw [hall'] at hx
            simp only [Ann.handles, Option.toList_some, List.mem_append, List.mem_singleton] at hx
            rcases hx with hx | rfl
            · exact Nat.lt_succ_of_lt (hlt x (by simp only [Ann.handles, List.mem_append]; exact Or.inl hx))
            · exact Nat.lt_succ_self _
      | false =>
        cases hs : m.stream with
        | none =>
          simp only [resolveStream, List.append_nil]
          rw [hs] at hst
          refine ⟨⟨inv.updatedNodup, hfit, ?_, ?_, ?_⟩, _, List.append_assoc _ _ _⟩
          · intro e; rw [hall]; exact hbufs e
          · rw [hall]; exact hst
          · intro x hx
            rw [hall] at hx
            exact Nat.lt_succ_of_lt (hlt x hx)
        | some h =>
          simp only [resolveStream]
          have hall' : ann (m.events ++ (a.current.map fun e => Event.removed e.id) ++
              (a.fresh.map fun e => Event.created e.id e.ty e.h) ++ [Event.streamRemoved h]) =
              ⟨((ann m.events).bufs.filter fun e => decide (e.id ∉ ids a.current)) ++ a.fresh, none⟩ := by
            unfold ann at hall ⊢
            rw [List.foldl_append, hall]; rfl
          refine ⟨⟨inv.updatedNodup, ?_, ?_, ?_, ?_⟩, _, (List.append_assoc _ _ _).trans (List.append_assoc _ _ _)⟩
          · rw [allFit_append]
            exact ⟨hfit, trivial, trivial⟩
          · intro e; rw [hall']; exact hbufs e
          · rw [hall']
          · intro x hx
            rw [hall'] at hx
            simp only [Ann.handles, Option.toList_none, List.append_nil] at hx
            exact Nat.lt_succ_of_lt (hlt x (by simp only [Ann.handles, List.mem_append]; exact Or.inl hx))

theorem mok_step {m : Mgr} (hm : MOk m) (op : Op) (ho : op.ok) :
    MOk (step m op) ∧ ∃ new, (step m op).events = m.events ++ new := by
  cases op with
  | update cfg s ok => exact mok_update hm cfg s ok ho
  | drop h =>
    simp only [step, dropHandle]
    split
    · exact ⟨⟨hm.nodup, hm.fit, hm.bufs, hm.stream, hm.next⟩, [], by simp⟩
    · exact ⟨hm, [], by simp⟩

/-! ### The uploads that run -/

theorem entry_eq {l : List Entry} (hn : (ids l).Nodup) {e e' : Entry} (he : e ∈ l) (he' : e' ∈ l) (h : e.id = e'.id) :
    e = e' := by
  have h1 := find_of_mem hn he
  have h2 := find_of_mem hn he'
  rw [h, h2] at h1
  exact (Option.some.inj h1).symm

theorem map_inj_of_nodup {α β : Type} (f : α → β) : ∀ {l : List α}, (l.map f).Nodup → ∀ {x y : α}, x ∈ l → y ∈ l → f x = f y → x = y
  | [], _, _, _, hx, _, _ => by cases hx
  | a :: l, hn, x, y, hx, hy, h => by
    rw [List.map_cons, List.nodup_cons] at hn
    rcases List.mem_cons.mp hx with rfl | hx'
    · rcases List.mem_cons.mp hy with rfl | hy'
      · rfl
      · exact absurd (h ▸ List.mem_map.mpr ⟨y, hy', rfl⟩) hn.1
    · rcases List.mem_cons.mp hy with rfl | hy'
      · exact absurd (h ▸ List.mem_map.mpr ⟨x, hx', rfl⟩) hn.1
      · exact map_inj_of_nodup f hn.2 hx' hy' h

/-- The uploads fit what was announced; with `full` nothing announced is without its upload. -/
structure UOk (full : Prop) (a : Ann) (u : Up) : Prop where
  up : u.up = true
  num : ∀ t ∈ u.tasks, t.no < u.next
  nos : (u.tasks.map (·.no)).Nodup
  handles : (u.tasks.map (·.h)).Nodup
  sd : ∀ id n, look id u.shutdowns = some n → n < u.next ∧ ∀ t ∈ u.tasks, t.no = n → t.id = id ∧ t.kind ≠ .stream
  st : ∀ n, u.streamTask = some n → n < u.next ∧ ∀ t ∈ u.tasks, t.no = n → t.kind = .stream
  cont : ∀ t ∈ u.tasks, t.kind = .continuous → ⟨t.id, .continuous, t.h⟩ ∈ a.bufs ∧ look t.id u.shutdowns = some t.no
  trig : ∀ t ∈ u.tasks, t.kind = .trigger →
    ⟨t.id, .trigger, t.h⟩ ∈ a.bufs ∧ look t.id u.shutdowns = some t.no ∧ t.id ∈ u.active ∧ t.id ∉ u.completed
  strm : ∀ t ∈ u.tasks, t.kind = .stream → a.stream = some t.h ∧ u.streamTask = some t.no
  bufs : ∀ id h, look id u.trigBufs = some h ↔ ⟨id, .trigger, h⟩ ∈ a.bufs
  compl : u.completed.Nodup ∧ ∀ id ∈ u.completed, id ∈ u.active
  fullC : full → ∀ e ∈ a.bufs, e.ty = .continuous → ∃ t ∈ u.tasks, t.kind = .continuous ∧ t.id = e.id ∧ t.h = e.h
  fullS : full → ∀ h, a.stream = some h → ∃ t ∈ u.tasks, t.kind = .stream ∧ t.h = h

theorem uok_init : UOk True ⟨[], none⟩ Up.init := by
  refine ⟨rfl, ?_, ?_, ?_, ?_, ?_, ?_, ?_, ?_, ?_, ?_, ?_, ?_⟩ <;> simp [Up.init, look]

/-- A task consumes a buffer that was announced. -/
theorem UOk.task_handle {full : Prop} {a : Ann} {u : Up} (h : UOk full a u) {t : Task} (ht : t ∈ u.tasks) : t.h ∈ a.handles := by
  simp only [Ann.handles, List.mem_append]
  cases hk : t.kind with
  | continuous => exact Or.inl (List.mem_map.mpr ⟨_, (h.cont t ht hk).1, rfl⟩)
  | trigger => exact Or.inl (List.mem_map.mpr ⟨_, (h.trig t ht hk).1, rfl⟩)
  | stream => exact Or.inr (by simp [(h.strm t ht hk).1])

theorem not_busy {u : Up} {h : Handle} (hn : ∀ t ∈ u.tasks, t.h ≠ h) : busy u h = false := by
  simp only [busy, List.any_eq_false, decide_eq_true_eq]
  exact hn

theorem dropTrigger_same {u : Up} {n : Nat} (h : ∀ t ∈ u.tasks, t.no = n → t.kind = .trigger) : dropTrigger u n = u := by
  have : (u.tasks.filter fun t => decide (t.no ≠ n) || decide (t.kind = .trigger)) = u.tasks := by
    refine List.filter_eq_self.mpr fun t ht => ?_
    by_cases hn : t.no = n
    · simp [h t ht hn]
    · simp [hn]
  unfold dropTrigger
  rw [this]

theorem nodup_snoc {α : Type} {l : List α} {x : α} (h : l.Nodup) (hx : x ∉ l) : (l ++ [x]).Nodup := by
  rw [List.nodup_append]
  refine ⟨h, by simp, ?_⟩
  intro y hy z hz hyz
  rw [List.mem_singleton.mp hz] at hyz
  exact hx (hyz ▸ hy)

theorem spawn_eq {full : Prop} {a : Ann} {u : Up} (hu : UOk full a u) (k : Kind) (id : Id) (h : Handle)
    (hno : ∀ t ∈ u.tasks, t.id = id → t.kind = .stream) :
    spawn u k id h =
      { u with tasks := u.tasks ++ [⟨u.next, k, id, h⟩], next := u.next + 1, shutdowns := put id u.next u.shutdowns } := by
  unfold spawn
  cases hl : look id u.shutdowns with
  | none => rfl
  | some n =>
    have : dropTrigger u n = u := dropTrigger_same fun t ht htn => by
      obtain ⟨h1, h2⟩ := (hu.sd id n hl).2 t ht htn
      exact absurd (hno t ht h1) h2
    simp only [dropOpt, this]

/-- A new upload of a continuous or trigger buffer. -/
theorem uok_spawn {full : Prop} {a a' : Ann} {u : Up} (hu : UOk full a u) (k : Kind) (hk : k ≠ .stream) (id : Id) (h : Handle)
    (act : List Id) (hno : ∀ t ∈ u.tasks, t.id = id → t.kind = .stream) (hh : ∀ t ∈ u.tasks, t.h ≠ h)
    (hsub : ∀ e ∈ a.bufs, e ∈ a'.bufs) (hstr : a'.stream = a.stream)
    (hin : k = .continuous → ⟨id, .continuous, h⟩ ∈ a'.bufs) (hin' : k = .trigger → ⟨id, .trigger, h⟩ ∈ a'.bufs)
    (hact : ∀ i ∈ u.active, i ∈ act) (hact' : k = .trigger → id ∈ act ∧ id ∉ u.completed)
    (hbufs : ∀ i x, (⟨i, .trigger, x⟩ : Entry) ∈ a'.bufs ↔ (⟨i, .trigger, x⟩ : Entry) ∈ a.bufs)
    (hfull : ∀ e ∈ a'.bufs, e.ty = .continuous → e ∈ a.bufs ∨ (k = .continuous ∧ e.id = id ∧ e.h = h)) :
    UOk full a' { u with tasks := u.tasks ++ [⟨u.next, k, id, h⟩], next := u.next + 1,
                         shutdowns := put id u.next u.shutdowns, active := act } := by
  have hold : ∀ t ∈ u.tasks, t.kind ≠ .stream → t.id ≠ id := fun t ht hs he => hs (hno t ht he)
  refine ⟨hu.up, ?_, ?_, ?_, ?_, ?_, ?_, ?_, ?_, ?_, ?_, ?_, ?_⟩
  · intro t ht
    rcases List.mem_append.mp ht with ht | ht
    · exact Nat.lt_succ_of_lt (hu.num t ht)
    · rw [List.mem_singleton.mp ht]; exact Nat.lt_succ_self _
  · simp only [List.map_append, List.map_cons, List.map_nil]
    refine nodup_snoc hu.nos fun hc => ?_
    obtain ⟨t, ht, hn⟩ := List.mem_map.mp hc
    exact Nat.ne_of_lt (hu.num t ht) hn
  · simp only [List.map_append, List.map_cons, List.map_nil]
    refine nodup_snoc hu.handles fun hc => ?_
    obtain ⟨t, ht, hn⟩ := List.mem_map.mp hc
    exact hh t ht hn
  · intro i n hn
    by_cases hi : i = id
    · subst hi
      simp only [look_put_self, Option.some.injEq] at hn
      subst hn
      refine ⟨Nat.lt_succ_self _, ?_⟩
      intro t ht htn
      rcases List.mem_append.mp ht with ht | ht
      · exact absurd htn (Nat.ne_of_lt (hu.num t ht))
      · rw [List.mem_singleton.mp ht]; exact ⟨rfl, hk⟩
    · rw [look_put_ne hi] at hn
      obtain ⟨h1, h2⟩ := hu.sd i n hn
      refine ⟨Nat.lt_succ_of_lt h1, ?_⟩
      intro t ht htn
      rcases List.mem_append.mp ht with ht | ht
      · exact h2 t ht htn
      · rw [List.mem_singleton.mp ht] at htn
        exact absurd htn.symm (Nat.ne_of_lt h1)
  · intro n hn
    obtain ⟨h1, h2⟩ := hu.st n hn
    refine ⟨Nat.lt_succ_of_lt h1, ?_⟩
    intro t ht htn
    rcases List.mem_append.mp ht with ht | ht
    · exact h2 t ht htn
    · rw [List.mem_singleton.mp ht] at htn
      exact absurd htn.symm (Nat.ne_of_lt h1)
  · intro t ht htk
    rcases List.mem_append.mp ht with ht | ht
    · obtain ⟨h1, h2⟩ := hu.cont t ht htk
      refine ⟨hsub _ h1, ?_⟩
      rw [look_put_ne (hold t ht (by simp [htk]))]
      exact h2
    · rw [List.mem_singleton.mp ht] at htk ⊢
      exact ⟨hin htk, look_put_self _ _ _⟩
  · intro t ht htk
    rcases List.mem_append.mp ht with ht | ht
    · obtain ⟨h1, h2, h3, h4⟩ := hu.trig t ht htk
      refine ⟨hsub _ h1, ?_, hact _ h3, h4⟩
      rw [look_put_ne (hold t ht (by simp [htk]))]
      exact h2
    · rw [List.mem_singleton.mp ht] at htk ⊢
      exact ⟨hin' htk, look_put_self _ _ _, hact' htk⟩
  · intro t ht htk
    rcases List.mem_append.mp ht with ht | ht
    · rw [hstr]; exact hu.strm t ht htk
    · rw [List.mem_singleton.mp ht] at htk
      exact absurd htk hk
  · intro i x
    rw [hbufs]
    exact hu.bufs i x
  · exact ⟨hu.compl.1, fun i hi => hact i (hu.compl.2 i hi)⟩
  · intro hf e he hty
    rcases hfull e he hty with h1 | ⟨h1, h2, h3⟩
    · obtain ⟨t, ht, hr⟩ := hu.fullC hf e h1 hty
      exact ⟨t, List.mem_append_left _ ht, hr⟩
    · exact ⟨_, List.mem_append_right _ (List.mem_singleton.mpr rfl), h1, h2.symm, h3.symm⟩
  · intro hf x hx
    rw [hstr] at hx
    obtain ⟨t, ht, hr⟩ := hu.fullS hf x hx
    exact ⟨t, List.mem_append_left _ ht, hr⟩

/-- Tasks with one number. -/
theorem filter_no {l : List Task} (hn : (l.map (·.no)).Nodup) (n : Nat) :
    (l.filter fun t => decide (t.no = n)) = [] ∨ ∃ t ∈ l, t.no = n ∧ (l.filter fun t => decide (t.no = n)) = [t] := by
  induction l with
  | nil => exact Or.inl rfl
  | cons x l ih =>
    rw [List.map_cons, List.nodup_cons] at hn
    by_cases hx : x.no = n
    · right
      refine ⟨x, List.mem_cons_self, hx, ?_⟩
      have : (l.filter fun t => decide (t.no = n)) = [] := by
        rw [List.filter_eq_nil_iff]
        intro t ht htn
        exact hn.1 (List.mem_map.mpr ⟨t, ht, (of_decide_eq_true htn).trans hx.symm⟩)
      simp [hx, this]
    · rcases ih hn.2 with h | ⟨t, ht, h1, h2⟩
      · left; simp [hx, h]
      · right; exact ⟨t, List.mem_cons_of_mem _ ht, h1, by simp [hx, h2]⟩

theorem endings_spec {full : Prop} {a : Ann} {u : Up} (hu : UOk full a u) (n : Nat) :
    (u.completed ++ endings (u.tasks.filter fun t => decide (t.no = n))).Nodup ∧
    (∀ id ∈ u.completed ++ endings (u.tasks.filter fun t => decide (t.no = n)), id ∈ u.active) ∧
    (∀ t ∈ u.tasks, t.kind = .trigger → t.no ≠ n →
      t.id ∉ u.completed ++ endings (u.tasks.filter fun t => decide (t.no = n))) := by
  rcases filter_no hu.nos n with h | ⟨t, ht, h1, h2⟩
  · rw [h]
    simp only [endings, List.filter_nil, List.map_nil, List.append_nil]
    exact ⟨hu.compl.1, hu.compl.2, fun t ht hk _ => (hu.trig t ht hk).2.2.2⟩
  · rw [h2]
    by_cases hk : t.kind = .trigger
    · have he : endings [t] = [t.id] := by simp [endings, hk]
      rw [he]
      obtain ⟨h3, h4, h5, h6⟩ := hu.trig t ht hk
      refine ⟨nodup_snoc hu.compl.1 h6, ?_, ?_⟩
      · intro id hid
        rcases List.mem_append.mp hid with hid | hid
        · exact hu.compl.2 id hid
        · rw [List.mem_singleton.mp hid]; exact h5
      · intro t' ht' hk' hn' hc
        rcases List.mem_append.mp hc with hc | hc
        · exact (hu.trig t' ht' hk').2.2.2 hc
        · have := (hu.trig t' ht' hk').2.1
          rw [List.mem_singleton.mp hc, h4, h1] at this
          exact hn' (Option.some.inj this).symm
    · have he : endings [t] = [] := by simp [endings, hk]
      rw [he, List.append_nil]
      exact ⟨hu.compl.1, hu.compl.2, fun t ht hk _ => (hu.trig t ht hk).2.2.2⟩

/-- Some tasks end; the rest of the state follows. -/
theorem uok_fewer {full full' : Prop} {a a' : Ann} {u u' : Up} (hu : UOk full a u) (keep : Task → Bool)
    (hup : u'.up = true) (hnext : u'.next = u.next) (htasks : u'.tasks = u.tasks.filter keep)
    (hsd : ∀ id n, look id u'.shutdowns = some n → look id u.shutdowns = some n)
    (hst : ∀ n, u'.streamTask = some n → u.streamTask = some n)
    (hcont : ∀ t ∈ u.tasks, keep t = true → t.kind = .continuous →
      ⟨t.id, .continuous, t.h⟩ ∈ a'.bufs ∧ look t.id u'.shutdowns = some t.no)
    (htrig : ∀ t ∈ u.tasks, keep t = true → t.kind = .trigger →
      ⟨t.id, .trigger, t.h⟩ ∈ a'.bufs ∧ look t.id u'.shutdowns = some t.no ∧ t.id ∈ u'.active ∧ t.id ∉ u'.completed)
    (hstrm : ∀ t ∈ u.tasks, keep t = true → t.kind = .stream → a'.stream = some t.h ∧ u'.streamTask = some t.no)
    (hbufs : ∀ id h, look id u'.trigBufs = some h ↔ ⟨id, .trigger, h⟩ ∈ a'.bufs)
    (hcompl : u'.completed.Nodup ∧ ∀ id ∈ u'.completed, id ∈ u'.active)
    (hfull : full' → full ∧ (∀ e ∈ a'.bufs, e.ty = .continuous → e ∈ a.bufs) ∧ (∀ h, a'.stream = some h → a.stream = some h) ∧
      (∀ t ∈ u.tasks, t.kind = .continuous → ⟨t.id, .continuous, t.h⟩ ∈ a'.bufs → keep t = true) ∧
      (∀ t ∈ u.tasks, t.kind = .stream → a'.stream = some t.h → keep t = true)) :
    UOk full' a' u' := by
  have hmem : ∀ t, t ∈ u'.tasks ↔ t ∈ u.tasks ∧ keep t = true := by intro t; rw [htasks, List.mem_filter]
  refine ⟨hup, ?_, ?_, ?_, ?_, ?_, ?_, ?_, ?_, hbufs, hcompl, ?_, ?_⟩
  · intro t ht; rw [hnext]; exact hu.num t ((hmem t).mp ht).1
  · rw [htasks]; exact List.Nodup.sublist (List.Sublist.map _ List.filter_sublist) hu.nos
  · rw [htasks]; exact List.Nodup.sublist (List.Sublist.map _ List.filter_sublist) hu.handles
  · intro id n hn
    rw [hnext]
    obtain ⟨h1, h2⟩ := hu.sd id n (hsd id n hn)
    exact ⟨h1, fun t ht => h2 t ((hmem t).mp ht).1⟩
  · intro n hn
    rw [hnext]
    obtain ⟨h1, h2⟩ := hu.st n (hst n hn)
    exact ⟨h1, fun t ht => h2 t ((hmem t).mp ht).1⟩
  · intro t ht hk; exact hcont t ((hmem t).mp ht).1 ((hmem t).mp ht).2 hk
  · intro t ht hk; exact htrig t ((hmem t).mp ht).1 ((hmem t).mp ht).2 hk
  · intro t ht hk; exact hstrm t ((hmem t).mp ht).1 ((hmem t).mp ht).2 hk
  · intro hf e he hty
    obtain ⟨h1, h2, _, h4, _⟩ := hfull hf
    obtain ⟨t, ht, hk, hi, hh⟩ := hu.fullC h1 e (h2 e he hty) hty
    refine ⟨t, (hmem t).mpr ⟨ht, h4 t ht hk ?_⟩, hk, hi, hh⟩
    rw [hi, hh, ← hty]; exact he
  · intro hf h hh
    obtain ⟨h1, _, h3, _, h5⟩ := hfull hf
    obtain ⟨t, ht, hk, hth⟩ := hu.fullS h1 h (h3 h hh)
    exact ⟨t, (hmem t).mpr ⟨ht, h5 t ht hk (hth ▸ hh)⟩, hk, hth⟩

theorem uok_handle {full : Prop} {a : Ann} {u : Up} (ha : AnnOk a) (hu : UOk full a u) (e : Event) (he : fits a e) :
    UOk full (a.step e) (handle u e) := by
  cases e with
  | created id ty h =>
    obtain ⟨h1, h2⟩ := he
    have hh : ∀ t ∈ u.tasks, t.h ≠ h := fun t ht hc => h2 (hc ▸ hu.task_handle ht)
    have hno : ∀ t ∈ u.tasks, t.id = id → t.kind = .stream := by
      intro t ht hti
      cases hk : t.kind with
      | stream => rfl
      | continuous => exact absurd (hti ▸ List.mem_map.mpr ⟨_, (hu.cont t ht hk).1, rfl⟩) h1
      | trigger => exact absurd (hti ▸ List.mem_map.mpr ⟨_, (hu.trig t ht hk).1, rfl⟩) h1
    cases ty with
    | continuous =>
      simp only [handle, not_busy hh, Bool.false_eq_true, if_false, spawn_eq hu .continuous id h hno]
      refine uok_spawn hu .continuous (by simp) id h u.active hno hh ?_ rfl ?_ (by simp) (fun _ hi => hi) (by simp) ?_ ?_
      · intro x hx; exact List.mem_append_left _ hx
      · intro _; exact List.mem_append_right _ (List.mem_singleton.mpr rfl)
      · intro i x
        simp [Ann.step]
      · intro x hx _
        rcases List.mem_append.mp hx with hx | hx
        · exact Or.inl hx
        · rw [List.mem_singleton.mp hx]; exact Or.inr ⟨rfl, rfl, rfl⟩
    | trigger =>
      simp only [handle]
      refine uok_fewer hu (fun _ => true) hu.up rfl (List.filter_eq_self.mpr fun _ _ => rfl).symm (fun _ _ h => h) (fun _ h => h) ?_ ?_ ?_ ?_ hu.compl ?_
      · intro t ht _ hk
        obtain ⟨h3, h4⟩ := hu.cont t ht hk
        exact ⟨List.mem_append_left _ h3, h4⟩
      · intro t ht _ hk
        obtain ⟨h3, h4⟩ := hu.trig t ht hk
        exact ⟨List.mem_append_left _ h3, h4⟩
      · intro t ht _ hk; exact hu.strm t ht hk
      · intro i x
        simp only [Ann.step, List.mem_append, List.mem_singleton, Entry.mk.injEq, true_and]
        by_cases hi : i = id
        · subst hi
          rw [look_put_self]
          constructor
          · intro hx; exact Or.inr ⟨rfl, (Option.some.inj hx).symm⟩
          · rintro (hx | ⟨_, rfl⟩)
            · exact absurd (List.mem_map.mpr ⟨_, hx, rfl⟩) h1
            · rfl
        · rw [look_put_ne hi, hu.bufs]
          simp [hi]
      · intro hf
        refine ⟨hf, ?_, fun _ h => h, fun _ _ _ _ => rfl, fun _ _ _ _ => rfl⟩
        intro x hx hty
        rcases List.mem_append.mp hx with hx | hx
        · exact hx
        · rw [List.mem_singleton.mp hx] at hty; cases hty
  | removed id =>
    simp only [handle]
    have hb : ∀ i x, look i (forget id u.trigBufs) = some x ↔ (⟨i, .trigger, x⟩ : Entry) ∈ (a.step (.removed id)).bufs := by
      intro i x
      simp only [Ann.step, mem_erase]
      by_cases hi : i = id
      · subst hi; simp [look_forget_self]
      · rw [look_forget_ne hi, hu.bufs]; simp [hi]
    have hs : ∀ i n, look i (forget id u.shutdowns) = some n → look i u.shutdowns = some n := by
      intro i n hn
      by_cases hi : i = id
      · subst hi; rw [look_forget_self] at hn; cases hn
      · rwa [look_forget_ne hi] at hn
    cases hl : look id u.shutdowns with
    | none =>
      simp only [stopOpt]
      have hne : ∀ t ∈ u.tasks, t.kind ≠ .stream → t.id ≠ id := by
        intro t ht hk hc
        cases hk' : t.kind with
        | stream => exact hk hk'
        | continuous => have := (hu.cont t ht hk').2; rw [hc, hl] at this; cases this
        | trigger => have := (hu.trig t ht hk').2.1; rw [hc, hl] at this; cases this
      refine uok_fewer hu (fun _ => true) hu.up rfl (List.filter_eq_self.mpr fun _ _ => rfl).symm hs (fun _ h => h) ?_ ?_ ?_ hb hu.compl ?_
      · intro t ht _ hk
        obtain ⟨h3, h4⟩ := hu.cont t ht hk
        have := hne t ht (by simp [hk])
        exact ⟨mem_erase.mpr ⟨h3, this⟩, by rw [look_forget_ne this]; exact h4⟩
      · intro t ht _ hk
        obtain ⟨h3, h4⟩ := hu.trig t ht hk
        have := hne t ht (by simp [hk])
        exact ⟨mem_erase.mpr ⟨h3, this⟩, by rw [look_forget_ne this]; exact h4⟩
      · intro t ht _ hk; exact hu.strm t ht hk
      · intro hf
        exact ⟨hf, fun x hx _ => (mem_erase.mp hx).1, fun _ h => h, fun _ _ _ _ => rfl, fun _ _ _ _ => rfl⟩
    | some n =>
      simp only [stopOpt, stopTask]
      obtain ⟨he1, he2, he3⟩ := endings_spec hu n
      refine uok_fewer hu (fun t => decide (t.no ≠ n)) hu.up rfl rfl hs (fun _ h => h) ?_ ?_ ?_ hb ⟨he1, he2⟩ ?_
      · intro t ht hn hk
        obtain ⟨h3, h4⟩ := hu.cont t ht hk
        have : t.id ≠ id := by
          intro hc
          rw [hc, hl] at h4
          simp [Option.some.inj h4] at hn
        exact ⟨mem_erase.mpr ⟨h3, this⟩, by rw [look_forget_ne this]; exact h4⟩
      · intro t ht hn hk
        obtain ⟨h3, h4, h5, h6⟩ := hu.trig t ht hk
        have : t.id ≠ id := by
          intro hc
          rw [hc, hl] at h4
          simp [Option.some.inj h4] at hn
        exact ⟨mem_erase.mpr ⟨h3, this⟩, by rw [look_forget_ne this]; exact h4, h5,
          he3 t ht hk (by simpa using hn)⟩
      · intro t ht _ hk; exact hu.strm t ht hk
      · intro hf
        refine ⟨hf, fun x hx _ => (mem_erase.mp hx).1, fun _ h => h, ?_, ?_⟩
        · intro t ht hk hx
          have hti := (mem_erase.mp hx).2
          simp only [ne_eq, decide_not, Bool.not_eq_eq_eq_not, Bool.not_true, decide_eq_false_iff_not]
          intro hc
          exact hti ((hu.sd id n hl).2 t ht hc).1
        · intro t ht hk _
          simp only [ne_eq, decide_not, Bool.not_eq_eq_eq_not, Bool.not_true, decide_eq_false_iff_not]
          intro hc
          exact ((hu.sd id n hl).2 t ht hc).2 hk
  | streamAdded h =>
    obtain ⟨h1, h2⟩ := he
    have hns : ∀ t ∈ u.tasks, t.kind ≠ .stream := by
      intro t ht hk
      have := (hu.strm t ht hk).1
      rw [h1] at this; cases this
    have hh : ∀ t ∈ u.tasks, t.h ≠ h := fun t ht hc => h2 (hc ▸ hu.task_handle ht)
    have hsame : dropOpt u u.streamTask = u := by
      cases hs : u.streamTask with
      | none => rfl
      | some n =>
        exact dropTrigger_same fun t ht htn => absurd ((hu.st n hs).2 t ht htn) (hns t ht)
    simp only [handle, hsame, not_busy hh, Bool.false_eq_true, if_false]
    refine ⟨hu.up, ?_, ?_, ?_, ?_, ?_, ?_, ?_, ?_, hu.bufs, hu.compl, ?_, ?_⟩
    · intro t ht
      rcases List.mem_append.mp ht with ht | ht
      · exact Nat.lt_succ_of_lt (hu.num t ht)
      · rw [List.mem_singleton.mp ht]; exact Nat.lt_succ_self _
    · simp only [List.map_append, List.map_cons, List.map_nil]
      refine nodup_snoc hu.nos fun hc => ?_
      obtain ⟨t, ht, hn⟩ := List.mem_map.mp hc
      exact Nat.ne_of_lt (hu.num t ht) hn
    · simp only [List.map_append, List.map_cons, List.map_nil]
      refine nodup_snoc hu.handles fun hc => ?_
      obtain ⟨t, ht, hn⟩ := List.mem_map.mp hc
      exact hh t ht hn
    · intro i n hn
      obtain ⟨h3, h4⟩ := hu.sd i n hn
      refine ⟨Nat.lt_succ_of_lt h3, ?_⟩
      intro t ht htn
      rcases List.mem_append.mp ht with ht | ht
      · exact h4 t ht htn
      · rw [List.mem_singleton.mp ht] at htn
        exact absurd htn.symm (Nat.ne_of_lt h3)
    · intro n hn
      have hn' : u.next = n := Option.some.inj hn
      subst hn'
      refine ⟨Nat.lt_succ_self _, ?_⟩
      intro t ht htn
      rcases List.mem_append.mp ht with ht | ht
      · exact absurd htn (Nat.ne_of_lt (hu.num t ht))
      · rw [List.mem_singleton.mp ht]
    · intro t ht hk
      rcases List.mem_append.mp ht with ht | ht
      · exact hu.cont t ht hk
      · rw [List.mem_singleton.mp ht] at hk; cases hk
    · intro t ht hk
      rcases List.mem_append.mp ht with ht | ht
      · exact hu.trig t ht hk
      · rw [List.mem_singleton.mp ht] at hk; cases hk
    · intro t ht hk
      rcases List.mem_append.mp ht with ht | ht
      · exact absurd hk (hns t ht)
      · rw [List.mem_singleton.mp ht]; exact ⟨rfl, rfl⟩
    · intro hf x hx hty
      obtain ⟨t, ht, hr⟩ := hu.fullC hf x hx hty
      exact ⟨t, List.mem_append_left _ ht, hr⟩
    · intro hf x hx
      exact ⟨_, List.mem_append_right _ (List.mem_singleton.mpr rfl), rfl, Option.some.inj hx⟩
  | streamRemoved h =>
    simp only [handle]
    cases hs : u.streamTask with
    | none =>
      simp only [stopOpt]
      have hns : ∀ t ∈ u.tasks, t.kind ≠ .stream := by
        intro t ht hk
        have := (hu.strm t ht hk).2
        rw [hs] at this; cases this
      refine uok_fewer hu (fun _ => true) hu.up rfl (List.filter_eq_self.mpr fun _ _ => rfl).symm (fun _ _ h => h) (by simp) (fun t ht _ hk => hu.cont t ht hk)
        (fun t ht _ hk => hu.trig t ht hk) (fun t ht _ hk => absurd hk (hns t ht)) hu.bufs hu.compl ?_
      intro hf
      exact ⟨hf, fun x hx _ => hx, by simp [Ann.step], fun _ _ _ _ => rfl, fun _ _ _ _ => rfl⟩
    | some n =>
      simp only [stopOpt, stopTask]
      obtain ⟨he1, he2, he3⟩ := endings_spec hu n
      have hn : ∀ t ∈ u.tasks, t.kind ≠ .stream → t.no ≠ n := fun t ht hk hc => hk ((hu.st n hs).2 t ht hc)
      refine uok_fewer hu (fun t => decide (t.no ≠ n)) hu.up rfl rfl (fun _ _ h => h) (by simp) (fun t ht _ hk => hu.cont t ht hk)
        ?_ ?_ hu.bufs ⟨he1, he2⟩ ?_
      · intro t ht hk' hk
        obtain ⟨h3, h4, h5, h6⟩ := hu.trig t ht hk
        exact ⟨h3, h4, h5, he3 t ht hk (by simpa using hk')⟩
      · intro t ht hk' hk
        have := (hu.strm t ht hk).2
        rw [hs] at this
        simp [Option.some.inj this] at hk'
      · intro hf
        refine ⟨hf, fun x hx _ => hx, by simp [Ann.step], ?_, by simp [Ann.step]⟩
        intro t ht hk _
        simpa using hn t ht (by simp [hk])

theorem uok_trigOne {full : Prop} {a : Ann} {u : Up} (ha : AnnOk a) (hu : UOk full a u) (id : Id) :
    UOk full a (trigOne u id) ∧
    (id ∉ u.active → ∀ h, ⟨id, .trigger, h⟩ ∈ a.bufs → ∃ t ∈ (trigOne u id).tasks, t.kind = .trigger ∧ t.id = id ∧ t.h = h) ∧
    (∀ t ∈ u.tasks, t ∈ (trigOne u id).tasks) ∧
    (∀ t ∈ (trigOne u id).tasks, t ∈ u.tasks ∨ (t.kind = .trigger ∧ t.id = id)) ∧
    (∀ i, i ∈ (trigOne u id).active → i ∈ u.active ∨ i = id) := by
  unfold trigOne
  simp only [hu.up, Bool.not_true, Bool.false_eq_true, if_false]
  by_cases hact : id ∈ u.active
  · rw [if_pos hact]
    exact ⟨hu, fun h => absurd hact h, fun _ h => h, fun _ h => Or.inl h, fun _ h => Or.inl h⟩
  · rw [if_neg hact]
    cases hl : look id u.trigBufs with
    | none =>
      refine ⟨hu, ?_, fun _ h => h, fun _ h => Or.inl h, fun _ h => Or.inl h⟩
      intro _ h hh
      have := (hu.bufs id h).mpr hh
      rw [hl] at this; cases this
    | some h =>
      have hin := (hu.bufs id h).mp hl
      have hno : ∀ t ∈ u.tasks, t.id = id → t.kind = .stream := by
        intro t ht hti
        cases hk : t.kind with
        | stream => rfl
        | continuous =>
          have := entry_eq ha.ids (hu.cont t ht hk).1 hin hti
          cases this
        | trigger => exact absurd (hti ▸ (hu.trig t ht hk).2.2.1) hact
      have hh : ∀ t ∈ u.tasks, t.h ≠ h := by
        intro t ht hc
        have hnd := ha.handles
        unfold Ann.handles at hnd
        rw [List.nodup_append] at hnd
        cases hk : t.kind with
        | stream =>
          have hs := (hu.strm t ht hk).1
          exact hnd.2.2 h (List.mem_map.mpr ⟨_, hin, rfl⟩) t.h (by simp [hs]) hc.symm
        | continuous =>
          have := map_inj_of_nodup (·.h) hnd.1 (hu.cont t ht hk).1 hin hc
          cases this
        | trigger =>
          have := map_inj_of_nodup (·.h) hnd.1 (hu.trig t ht hk).1 hin hc
          have hi : t.id = id := by injection this
          exact hact (hi ▸ (hu.trig t ht hk).2.2.1)
      have hcompl : id ∉ u.completed := fun hc => hact (hu.compl.2 id hc)
      simp only [not_busy hh, Bool.false_eq_true, if_false, spawn_eq hu .trigger id h hno]
      refine ⟨?_, ?_, ?_, ?_, ?_⟩
      · exact uok_spawn hu .trigger (by simp) id h (id :: u.active) hno hh (fun _ h => h) rfl (by simp) (fun _ => hin)
          (fun _ h => List.mem_cons_of_mem _ h) (fun _ => ⟨List.mem_cons_self, hcompl⟩) (fun _ _ => Iff.rfl)
          (fun _ h _ => Or.inl h)
      · intro _ x hx
        have := (hu.bufs id x).mpr hx
        rw [hl] at this
        exact ⟨_, List.mem_append_right _ (List.mem_singleton.mpr rfl), rfl, rfl, Option.some.inj this⟩
      · intro t ht; exact List.mem_append_left _ ht
      · intro t ht
        rcases List.mem_append.mp ht with ht | ht
        · exact Or.inl ht
        · rw [List.mem_singleton.mp ht]; exact Or.inr ⟨rfl, rfl⟩
      · intro i hi
        rcases List.mem_cons.mp hi with rfl | hi
        · exact Or.inr rfl
        · exact Or.inl hi

/-! ### The whole -/

/-- Configurations name every buffer once. -/
def Act.ok : Act → Prop
  | .mgr op => op.ok
  | _ => True

def Act.isCrash : Act → Prop
  | .crash _ => True
  | _ => False

def Act.isShutdown : Act → Prop
  | .shutdown => True
  | _ => False

structure SysOk (full calm : Prop) (s : Sys) : Prop where
  m : MOk s.m
  seen : s.seen ≤ s.m.events.length
  handles : (s.u.tasks.map (·.h)).Nodup
  u : s.u.up = true → UOk full (ann (s.m.events.take s.seen)) s.u
  up : calm → s.u.up = true
  down : s.u.up = false → s.u.tasks = []

theorem trig_fold {full : Prop} {a : Ann} (ha : AnnOk a) (l : List Id) : ∀ (u : Up), UOk full a u →
    UOk full a (l.foldl trigOne u) ∧ (∀ t ∈ u.tasks, t ∈ (l.foldl trigOne u).tasks) ∧
    (∀ t ∈ (l.foldl trigOne u).tasks, t ∈ u.tasks ∨ (t.kind = .trigger ∧ t.id ∈ l)) ∧
    (∀ id ∈ l, id ∉ u.active → ∀ h, ⟨id, .trigger, h⟩ ∈ a.bufs →
      ∃ t ∈ (l.foldl trigOne u).tasks, t.kind = .trigger ∧ t.id = id ∧ t.h = h) := by
  induction l with
  | nil => intro u hu; exact ⟨hu, fun _ h => h, fun _ h => Or.inl h, by simp⟩
  | cons x l ih =>
    intro u hu
    obtain ⟨h1, h2, h3, h4, h5⟩ := uok_trigOne ha hu x
    obtain ⟨i1, i2, i3, i4⟩ := ih _ h1
    refine ⟨i1, fun t ht => i2 t (h3 t ht), ?_, ?_⟩
    · intro t ht
      rcases i3 t ht with h | ⟨hk, h⟩
      · rcases h4 t h with h | ⟨hk, h⟩
        · exact Or.inl h
        · exact Or.inr ⟨hk, h ▸ List.mem_cons_self⟩
      · exact Or.inr ⟨hk, List.mem_cons_of_mem _ h⟩
    · intro id hid hact h hin
      by_cases hx : id = x
      · subst hx
        obtain ⟨t, ht, hr⟩ := h2 hact h hin
        exact ⟨t, i2 t ht, hr⟩
      · have hl : id ∈ l := (List.mem_cons.mp hid).resolve_left hx
        refine i4 id hl (fun hc => ?_) h hin
        rcases h5 id hc with hc | hc
        · exact hact hc
        · exact hx hc

theorem annOk_take {m : Mgr} (hm : MOk m) (n : Nat) : AnnOk (ann (m.events.take n)) := by
  refine annOk_fold _ _ annOk_empty ?_
  have := hm.fit
  rw [← List.take_append_drop n m.events, allFit_append] at this
  exact this.1

theorem uok_finish {full : Prop} {a : Ann} {u : Up} (hu : UOk full a u) (n : Nat) : UOk full a (finishOne u n) := by
  obtain ⟨he1, he2, he3⟩ := endings_spec hu n
  refine uok_fewer hu (fun t => decide (t.no ≠ n) || decide (t.kind ≠ .trigger)) hu.up rfl rfl (fun _ _ h => h) (fun _ h => h)
    (fun t ht _ hk => hu.cont t ht hk) ?_ (fun t ht _ hk => hu.strm t ht hk) hu.bufs ⟨he1, he2⟩ ?_
  · intro t ht hk hkind
    obtain ⟨h1, h2, h3, _⟩ := hu.trig t ht hkind
    refine ⟨h1, h2, h3, he3 t ht hkind ?_⟩
    simpa [hkind] using hk
  · intro hf
    exact ⟨hf, fun _ h _ => h, fun _ h => h, fun t _ hk _ => by simp [hk], fun t _ hk _ => by simp [hk]⟩

theorem uok_clear {full : Prop} {a : Ann} {u : Up} (hu : UOk full a u) : UOk full a (clearOne u) := by
  unfold clearOne
  cases hc : u.completed with
  | nil => exact hu
  | cons id rest =>
    have hn := hu.compl
    rw [hc] at hn
    simp only
    refine uok_fewer hu (fun _ => true) hu.up rfl (List.filter_eq_self.mpr fun _ _ => rfl).symm (fun _ _ h => h) (fun _ h => h)
      (fun t ht _ hk => hu.cont t ht hk) ?_ (fun t ht _ hk => hu.strm t ht hk) hu.bufs ?_ ?_
    · intro t ht _ hk
      obtain ⟨h1, h2, h3, h4⟩ := hu.trig t ht hk
      rw [hc] at h4
      refine ⟨h1, h2, ?_, fun h => h4 (List.mem_cons_of_mem _ h)⟩
      rw [List.mem_filter]
      exact ⟨h3, decide_eq_true fun (h : t.id = id) => h4 (h ▸ List.mem_cons_self)⟩
    · have hn1 := List.nodup_cons.mp hn.1
      refine ⟨hn1.2, ?_⟩
      intro i hi
      rw [List.mem_filter]
      exact ⟨hn.2 i (List.mem_cons_of_mem _ hi), decide_eq_true fun (h : i = id) => hn1.1 (h ▸ hi)⟩
    · intro hf
      exact ⟨hf, fun _ h _ => h, fun _ h => h, fun _ _ _ _ => rfl, fun _ _ _ _ => rfl⟩

theorem uok_crash {full : Prop} {a : Ann} {u : Up} (hu : UOk full a u) (n : Nat) : UOk False a (dropTrigger u n) :=
  uok_fewer hu (fun t => decide (t.no ≠ n) || decide (t.kind = .trigger)) hu.up rfl rfl (fun _ _ h => h) (fun _ h => h)
    (fun t ht _ hk => hu.cont t ht hk) (fun t ht _ hk => hu.trig t ht hk) (fun t ht _ hk => hu.strm t ht hk) hu.bufs hu.compl
    (fun hf => hf.elim)

theorem sysok_step {full calm : Prop} {s : Sys} (hs : SysOk full calm s) (x : Act) (hx : x.ok) :
    SysOk (full ∧ ¬x.isCrash) (calm ∧ ¬x.isShutdown) (s.step x) := by
  have weaken : ∀ {a : Ann} {u : Up}, UOk full a u → UOk (full ∧ ¬x.isCrash) a u := fun h =>
    ⟨h.up, h.num, h.nos, h.handles, h.sd, h.st, h.cont, h.trig, h.strm, h.bufs, h.compl, fun hf => h.fullC hf.1, fun hf => h.fullS hf.1⟩
  have same : SysOk (full ∧ ¬x.isCrash) (calm ∧ ¬x.isShutdown) s :=
    ⟨hs.m, hs.seen, hs.handles, fun h => weaken (hs.u h), fun h => hs.up h.1, hs.down⟩
  cases x with
  | mgr op =>
    obtain ⟨h1, new, h2⟩ := mok_step hs.m op hx
    simp only [Sys.step]
    refine ⟨h1, ?_, hs.handles, ?_, fun h => hs.up h.1, hs.down⟩
    · simp only [h2, List.length_append]
      exact Nat.le_add_right_of_le hs.seen
    · intro hup
      simp only [h2]
      rw [List.take_append_of_le_length hs.seen]
      exact weaken (hs.u hup)
  | handle =>
    simp only [Sys.step]
    by_cases hup : s.u.up = true
    · simp only [hup, if_true]
      cases he : s.m.events[s.seen]? with
      | none => exact same
      | some e =>
        simp only
        have hlt : s.seen < s.m.events.length := by
          have := List.getElem?_eq_some_iff.mp he
          exact this.1
        have htake : s.m.events.take (s.seen + 1) = s.m.events.take s.seen ++ [e] := by
          rw [List.take_add_one, he]; rfl
        have hfit : fits (ann (s.m.events.take s.seen)) e := by
          have := hs.m.fit
          rw [← List.take_append_drop (s.seen + 1) s.m.events, allFit_append, htake, allFit_append] at this
          exact this.1.2.1
        have hu := uok_handle (annOk_take hs.m s.seen) (hs.u hup) e hfit
        have heq : ann (s.m.events.take (s.seen + 1)) = (ann (s.m.events.take s.seen)).step e := by
          unfold ann
          rw [htake, List.foldl_append]; rfl
        refine ⟨hs.m, hlt, hu.handles, ?_, fun _ => hu.up, fun h => absurd (hu.up.symm.trans h) (by simp)⟩
        intro _
        simp only [heq]
        exact weaken hu
    · simp only [hup, Bool.false_eq_true, if_false]; exact same
  | request ids =>
    simp only [Sys.step]
    by_cases hup : s.u.up = true
    · simp only [hup, if_true]
      have hu := (trig_fold (annOk_take hs.m s.seen) ids s.u (hs.u hup)).1
      exact ⟨hs.m, hs.seen, hu.handles, fun _ => weaken hu, fun _ => hu.up, fun h => absurd (hu.up.symm.trans h) (by simp)⟩
    · simp only [hup, Bool.false_eq_true, if_false]; exact same
  | finish n =>
    simp only [Sys.step]
    exact ⟨hs.m, hs.seen, List.Nodup.sublist (List.Sublist.map _ List.filter_sublist) hs.handles,
      fun h => weaken (uok_finish (hs.u h) n), fun h => hs.up h.1, fun h => by simp [finishOne, hs.down h]⟩
  | clear =>
    simp only [Sys.step]
    by_cases hup : s.u.up = true
    · simp only [hup, if_true]
      have hu := uok_clear (hs.u hup)
      exact ⟨hs.m, hs.seen, hu.handles, fun _ => weaken hu, fun _ => hu.up, fun h => absurd (hu.up.symm.trans h) (by simp)⟩
    · simp only [hup, Bool.false_eq_true, if_false]; exact same
  | crash n =>
    simp only [Sys.step]
    refine ⟨hs.m, hs.seen, List.Nodup.sublist (List.Sublist.map _ List.filter_sublist) hs.handles, ?_, fun h => hs.up h.1, fun h => by simp [dropTrigger, hs.down h]⟩
    intro h
    have hu := uok_crash (hs.u h) n
    exact ⟨hu.up, hu.num, hu.nos, hu.handles, hu.sd, hu.st, hu.cont, hu.trig, hu.strm, hu.bufs, hu.compl,
      fun hf => (hf.2 trivial).elim, fun hf => (hf.2 trivial).elim⟩
  | shutdown =>
    simp only [Sys.step]
    by_cases hup : s.u.up = true
    · simp only [hup, if_true]
      exact ⟨hs.m, hs.seen, by simp [shutdownAll], by simp [shutdownAll], fun h => (h.2 trivial).elim, fun _ => rfl⟩
    · simp only [hup, Bool.false_eq_true, if_false]; exact same

theorem sysok_run (acts : List Act) (ho : ∀ x ∈ acts, x.ok) :
    SysOk (∀ x ∈ acts, ¬x.isCrash) (∀ x ∈ acts, ¬x.isShutdown) (Sys.run acts) := by
  have gen : ∀ (acts : List Act) (full calm : Prop) (s : Sys), (∀ x ∈ acts, x.ok) → SysOk full calm s →
      SysOk (full ∧ ∀ x ∈ acts, ¬x.isCrash) (calm ∧ ∀ x ∈ acts, ¬x.isShutdown) (acts.foldl Sys.step s) := by
    intro acts
    induction acts with
    | nil =>
      intro full calm s _ h
      exact ⟨h.m, h.seen, h.handles, fun hu => by simpa using h.u hu, fun hc => h.up hc.1, h.down⟩
    | cons x acts ih =>
      intro full calm s ho h
      have := ih _ _ _ (fun y hy => ho y (List.mem_cons_of_mem _ hy)) (sysok_step h x (ho x List.mem_cons_self))
      simpa [and_assoc] using this
  have h0 : SysOk True True Sys.init :=
    ⟨mok_init, Nat.le_refl _, by simp [Sys.init, Up.init], fun _ => uok_init, fun _ => rfl, fun _ => rfl⟩
  have := gen acts True True Sys.init ho h0
  simpa [Sys.run] using this

/-- C117: whatever happens, no buffer has two uploads reading it. -/
theorem C117_exclusive (acts : List Act) (ho : ∀ x ∈ acts, x.ok) (t t' : Task) (ht : t ∈ (Sys.run acts).u.tasks)
    (ht' : t' ∈ (Sys.run acts).u.tasks) (h : t.h = t'.h) : t = t' :=
  map_inj_of_nodup (·.h) (sysok_run acts ho).handles ht ht' h

/-- C117: registering a consumer never fails, so the upload manager runs until it is shut down: neither of the `?` on a
consumer nor the `unwrap` of the stream buffer's consumer ends it. -/
theorem C117_registers (acts : List Act) (ho : ∀ x ∈ acts, x.ok) (hn : ∀ x ∈ acts, ¬x.isShutdown) :
    (Sys.run acts).u.up = true := (sysok_run acts ho).up hn

/-- C117: when all events were taken (what `update_from_config` waits for), every continuous buffer and the stream buffer
has an upload task of its own, requests for a trigger buffer find that buffer and no other, as long as no upload task
failed.  Missing for the full statement: a task that failed is replaced (`C117_failed_violated`). -/
theorem C117_follow_partial (acts : List Act) (ho : ∀ x ∈ acts, x.ok) (hn : ∀ x ∈ acts, ¬x.isShutdown)
    (hc : ∀ x ∈ acts, ¬x.isCrash) (hall : (Sys.run acts).seen = (Sys.run acts).m.events.length) :
    (∀ id h, ⟨id, .continuous, h⟩ ∈ (Sys.run acts).m.bufs ↔
      ∃ t ∈ (Sys.run acts).u.tasks, t.kind = .continuous ∧ t.id = id ∧ t.h = h) ∧
    (∀ h, (Sys.run acts).m.stream = some h ↔ ∃ t ∈ (Sys.run acts).u.tasks, t.kind = .stream ∧ t.h = h) ∧
    (∀ id h, ⟨id, .trigger, h⟩ ∈ (Sys.run acts).m.bufs ↔ look id (Sys.run acts).u.trigBufs = some h) := by
  have hs := sysok_run acts ho
  have hu := hs.u (hs.up hn)
  rw [hall, List.take_length] at hu
  refine ⟨?_, ?_, ?_⟩
  · intro id h
    rw [← hs.m.bufs]
    constructor
    · intro hin
      exact hu.fullC hc _ hin rfl
    · rintro ⟨t, ht, hk, rfl, rfl⟩
      exact (hu.cont t ht hk).1
  · intro h
    rw [← hs.m.stream]
    constructor
    · intro hin; exact hu.fullS hc h hin
    · rintro ⟨t, ht, hk, rfl⟩; exact (hu.strm t ht hk).1
  · intro id h
    rw [← hs.m.bufs, hu.bufs]

/-- C117: when all events were taken nothing is read but the buffers that exist, each by the kind of upload meant for it:
the uploads keep no removed buffer, also if some failed. -/
theorem C117_nothing_else (acts : List Act) (ho : ∀ x ∈ acts, x.ok) (hn : ∀ x ∈ acts, ¬x.isShutdown)
    (hall : (Sys.run acts).seen = (Sys.run acts).m.events.length) (t : Task) (ht : t ∈ (Sys.run acts).u.tasks) :
    match t.kind with
    | .continuous => ⟨t.id, .continuous, t.h⟩ ∈ (Sys.run acts).m.bufs
    | .trigger => ⟨t.id, .trigger, t.h⟩ ∈ (Sys.run acts).m.bufs
    | .stream => (Sys.run acts).m.stream = some t.h := by
  have hs := sysok_run acts ho
  have hu := hs.u (hs.up hn)
  rw [hall, List.take_length] at hu
  cases hk : t.kind with
  | continuous => exact (hs.m.bufs _).mp (hu.cont t ht hk).1
  | trigger => exact (hs.m.bufs _).mp (hu.trig t ht hk).1
  | stream => exact hs.m.stream ▸ (hu.strm t ht hk).1

/-- C117: a request starts an upload of each trigger buffer it names that is not being uploaded, of the very buffer the
buffer manager has under that name; it starts nothing else and disturbs no other upload. -/
theorem C117_request (acts : List Act) (ho : ∀ x ∈ acts, x.ok) (hn : ∀ x ∈ acts, ¬x.isShutdown)
    (hall : (Sys.run acts).seen = (Sys.run acts).m.events.length) (ids : List Id) :
    (∀ id ∈ ids, id ∉ (Sys.run acts).u.active → ∀ h, ⟨id, .trigger, h⟩ ∈ (Sys.run acts).m.bufs →
      ∃ t ∈ (Sys.run (acts ++ [.request ids])).u.tasks, t.kind = .trigger ∧ t.id = id ∧ t.h = h) ∧
    (∀ t ∈ (Sys.run acts).u.tasks, t ∈ (Sys.run (acts ++ [.request ids])).u.tasks) ∧
    (∀ t ∈ (Sys.run (acts ++ [.request ids])).u.tasks, t ∈ (Sys.run acts).u.tasks ∨
      (t.kind = .trigger ∧ t.id ∈ ids ∧ ⟨t.id, .trigger, t.h⟩ ∈ (Sys.run acts).m.bufs)) := by
  have hs := sysok_run acts ho
  have hup := hs.up hn
  have hu := hs.u hup
  have ha := annOk_take hs.m (Sys.run acts).seen
  rw [hall, List.take_length] at hu ha
  obtain ⟨h1, h2, h3, h4⟩ := trig_fold ha ids (Sys.run acts).u hu
  have hstep : (Sys.run (acts ++ [.request ids])).u = ids.foldl trigOne (Sys.run acts).u := by
    have : Sys.run (acts ++ [.request ids]) = (Sys.run acts).step (.request ids) := by simp [Sys.run]
    rw [this]
    simp [Sys.step, hup]
  rw [hstep]
  refine ⟨?_, h2, ?_⟩
  · intro id hid hact h hin
    exact h4 id hid hact h ((hs.m.bufs _).mpr hin)
  · intro t ht
    rcases h3 t ht with h | ⟨hk, h⟩
    · exact Or.inl h
    · exact Or.inr ⟨hk, h, (hs.m.bufs _).mp (h1.trig t ht hk).1⟩

/-- C117: after a shutdown nothing is read any more, whatever follows. -/
theorem C117_stopped (acts more : List Act) (ho : ∀ x ∈ acts ++ .shutdown :: more, x.ok) :
    (Sys.run (acts ++ .shutdown :: more)).u.tasks = [] := by
  have gen : ∀ (l : List Act) (s : Sys), s.u.up = false → (l.foldl Sys.step s).u.up = false := by
    intro l
    induction l with
    | nil => intro s h; exact h
    | cons x l ih =>
      intro s hs
      refine ih _ ?_
      cases x <;> simp [Sys.step, hs, finishOne, dropTrigger]
  refine (sysok_run _ ho).down ?_
  unfold Sys.run
  rw [List.foldl_append, List.foldl_cons]
  refine gen _ _ ?_
  simp only [Sys.step]
  split
  · rfl
  · rename_i hf; simpa using hf

/-- The property fails here: an upload task that returned an error is not replaced, however often the configuration with
its buffer is applied again; the buffer exists, is written to and never uploaded. -/
theorem C117_failed_violated :
    let cfg : List BufCfg := [⟨1, some .continuous⟩]
    let s := Sys.run [.mgr (.update cfg false (fun _ => true)), .handle, .crash 0, .mgr (.update cfg false (fun _ => true)), .handle]
    s.m.bufs = [⟨1, .continuous, 0⟩] ∧ s.seen = s.m.events.length ∧ s.u.up = true ∧ s.u.tasks = [] := by decide

/-- The hypotheses are met by a history with all kinds of buffers, a removal, a buffer configured again and a request. -/
example :
    let acts : List Act := [
      .mgr (.update [⟨1, some .continuous⟩, ⟨2, some .trigger⟩] true (fun _ => true)), .handle, .handle, .handle,
      .request [2, 1, 7], .mgr (.update [⟨2, some .trigger⟩] false (fun _ => true)), .handle, .handle, .finish 2, .clear,
      .mgr (.update [⟨1, some .continuous⟩, ⟨2, some .trigger⟩] true (fun _ => true)), .handle, .handle, .request [2]]
    (∀ x ∈ acts, x.ok) ∧ (Sys.run acts).seen = (Sys.run acts).m.events.length ∧
    (Sys.run acts).u.tasks = [⟨3, .continuous, 1, 4⟩, ⟨4, .stream, 0, 5⟩, ⟨5, .trigger, 2, 1⟩] ∧
    (Sys.run acts).m.bufs = [⟨1, .continuous, 4⟩, ⟨2, .trigger, 1⟩] := by
  refine ⟨?_, ?_, ?_, ?_⟩
  · simp [Act.ok, Op.ok]
  all_goals decide

end Verif.Mgr
