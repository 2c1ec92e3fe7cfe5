import Verif.Mgr.Model

/-
C50: the set of buffers follows the configuration.  C54: flush requests.
-/
namespace Verif.Mgr

def ids (l : List Entry) : List Id := l.map (·.id)

theorem find_some {id : Id} {l : List Entry} {e : Entry} (h : find id l = some e) : e ∈ l ∧ e.id = id := by
  unfold find at h
  exact ⟨List.mem_of_find?_eq_some h, by simpa using List.find?_some h⟩

theorem find_none {id : Id} {l : List Entry} : find id l = none ↔ id ∉ ids l := by
  unfold find ids
  rw [List.find?_eq_none]
  simp only [List.mem_map, not_exists, not_and]
  exact ⟨fun h x hx he => h x hx (by simp [he]), fun h x hx he => h x hx (by simpa using he)⟩

theorem find_of_mem {l : List Entry} (hn : (ids l).Nodup) {e : Entry} (he : e ∈ l) : find e.id l = some e := by
  induction l with
  | nil => cases he
  | cons x l ih =>
    simp only [ids, List.map_cons, List.nodup_cons] at hn
    unfold find
    rw [List.find?_cons]
    rcases List.mem_cons.mp he with rfl | he'
    · simp
    · have hx : x.id ≠ e.id := fun hxe => hn.1 (hxe ▸ List.mem_map.mpr ⟨e, he', rfl⟩)
      simp only [hx, decide_false]
      exact ih hn.2 he'

theorem mem_erase {id : Id} {l : List Entry} {e : Entry} : e ∈ erase id l ↔ e ∈ l ∧ e.id ≠ id := by
  simp [erase]

theorem ids_erase {id k : Id} {l : List Entry} : k ∈ ids (erase id l) ↔ k ∈ ids l ∧ k ≠ id := by
  simp only [ids, List.mem_map, mem_erase]
  constructor
  · rintro ⟨e, ⟨h1, h2⟩, rfl⟩; exact ⟨⟨e, h1, rfl⟩, h2⟩
  · rintro ⟨⟨e, h1, rfl⟩, h2⟩; exact ⟨e, ⟨h1, h2⟩, rfl⟩

theorem nodup_erase {id : Id} {l : List Entry} (h : (ids l).Nodup) : (ids (erase id l)).Nodup :=
  List.Nodup.sublist (List.Sublist.map _ List.filter_sublist) h

theorem mem_insert {e x : Entry} {l : List Entry} : x ∈ insert e l ↔ (x ∈ l ∧ x.id ≠ e.id) ∨ x = e := by
  simp [insert, mem_erase]

theorem nodup_insert {e : Entry} {l : List Entry} (h : (ids l).Nodup) : (ids (insert e l)).Nodup := by
  unfold insert
  simp only [ids, List.map_append, List.map_cons, List.map_nil]
  rw [List.nodup_append]
  refine ⟨nodup_erase h, by simp, ?_⟩
  intro a ha b hb he
  rw [List.mem_singleton.mp hb] at he
  exact (ids_erase.mp ha).2 he

theorem mem_ids_insert {k : Id} {e : Entry} {l : List Entry} : k ∈ ids (insert e l) ↔ k ∈ ids l ∨ k = e.id := by
  simp only [ids, List.mem_map, mem_insert]
  constructor
  · rintro ⟨x, (⟨h1, _⟩ | rfl), rfl⟩
    · exact Or.inl ⟨x, h1, rfl⟩
    · exact Or.inr rfl
  · rintro (⟨x, h1, rfl⟩ | rfl)
    · by_cases h : x.id = e.id
      · exact ⟨e, Or.inr rfl, h.symm⟩
      · exact ⟨x, Or.inl ⟨h1, h⟩, rfl⟩
    · exact ⟨e, Or.inr rfl, rfl⟩

/-- What the loop has established after the configuration entries `done` (with distinct ids). -/
structure LoopInv (old : List Entry) (next0 : Handle) (files0 : List Id) (done : List BufCfg) (a : Acc) : Prop where
  current : ∀ e, e ∈ a.current ↔ e ∈ old ∧ e.id ∉ done.map (·.id)
  currentNodup : (ids a.current).Nodup
  updatedNodup : (ids a.updated).Nodup
  freshNodup : (ids a.fresh).Nodup
  updated : ∀ e, e ∈ a.updated ↔ (e ∈ old ∧ e.id ∈ done.map (·.id)) ∨ e ∈ a.fresh
  fresh : ∀ e ∈ a.fresh, e.id ∉ ids old ∧ ⟨e.id, some e.ty⟩ ∈ done ∧ next0 ≤ e.h ∧ e.h < a.next
  freshAll : ∀ c ∈ done, c.id ∉ ids old → c.id ∈ ids a.fresh
  freshHandles : (a.fresh.map (·.h)).Nodup
  next : next0 ≤ a.next
  files : ∀ f, f ∈ a.files ↔ f ∈ files0 ∨ f ∈ ids a.fresh

theorem loop_inv (ok : Id → Bool) (old : List Entry) (hold : (ids old).Nodup) (next0 : Handle) (files0 : List Id)
    (cs : List BufCfg) : ∀ (done : List BufCfg) (a a' : Acc), ((done ++ cs).map (·.id)).Nodup →
    LoopInv old next0 files0 done a → cfgLoop ok a cs = (a', true) → LoopInv old next0 files0 (done ++ cs) a' := by
  induction cs with
  | nil =>
    intro done a a' _ hi h
    simp only [cfgLoop, Prod.mk.injEq] at h
    rw [← h.1, List.append_nil]; exact hi
  | cons c cs ih =>
    intro done a a' hn hi h
    have hn' : (((done ++ [c]) ++ cs).map (·.id)).Nodup := by simpa using hn
    have hcd : c.id ∉ done.map (·.id) := by
      simp only [List.map_append, List.map_cons] at hn
      rw [List.nodup_append] at hn
      intro hm
      exact hn.2.2 _ hm _ List.mem_cons_self rfl
    unfold cfgLoop at h
    have key : ∀ a1, cfgStep ok a c = (a1, true) → LoopInv old next0 files0 (done ++ [c]) a1 := by
      intro a1 h1
      unfold cfgStep at h1
      cases hty : c.ty with
      | none => rw [hty] at h1; simp at h1
      | some ty =>
        rw [hty] at h1
        simp only at h1
        cases hf : find c.id a.current with
        | some e =>
          rw [hf] at h1
          simp only [Prod.mk.injEq, and_true] at h1
          obtain ⟨hem, heid⟩ := find_some hf
          have heold := ((hi.current e).mp hem).1
          have hefind := find_of_mem hold heold
          rw [← h1]
          refine ⟨?_, nodup_erase hi.currentNodup, nodup_insert hi.updatedNodup, hi.freshNodup, ?_, ?_, ?_, hi.freshHandles,
            hi.next, hi.files⟩
          · intro x
            rw [mem_erase, hi.current x]
            simp only [List.map_append, List.map_cons, List.map_nil, List.mem_append, List.mem_singleton, not_or]
            exact and_assoc
          · intro x
            simp only [mem_insert, hi.updated x, List.map_append, List.map_cons, List.map_nil, List.mem_append, List.mem_singleton]
            constructor
            · rintro (⟨h2 | h2, h3⟩ | rfl)
              · exact Or.inl ⟨h2.1, Or.inl h2.2⟩
              · exact Or.inr h2
              · exact Or.inl ⟨heold, Or.inr heid⟩
            · rintro (⟨h2, h3 | h3⟩ | h2)
              · refine Or.inl ⟨Or.inl ⟨h2, h3⟩, ?_⟩
                intro he
                rw [he, heid] at h3
                exact hcd h3
              · right
                have := find_of_mem hold h2
                rw [h3, ← heid, hefind] at this
                exact (Option.some.inj this).symm
              · refine Or.inl ⟨Or.inr h2, ?_⟩
                intro he
                exact (hi.fresh x h2).1 (he ▸ List.mem_map.mpr ⟨e, heold, rfl⟩)
          · intro x hx
            obtain ⟨h2, h3, h4⟩ := hi.fresh x hx
            exact ⟨h2, List.mem_append_left _ h3, h4⟩
          · intro d hd hdo
            rcases List.mem_append.mp hd with hd | hd
            · exact hi.freshAll d hd hdo
            · rw [List.mem_singleton.mp hd, ← heid] at hdo
              exact absurd (List.mem_map.mpr ⟨e, heold, rfl⟩) hdo
        | none =>
          rw [hf] at h1
          simp only at h1
          split at h1
          · simp only [Prod.mk.injEq, and_true] at h1
            have hnold : c.id ∉ ids old := by
              intro hm
              obtain ⟨e, he, heid⟩ := List.mem_map.mp hm
              refine find_none.mp hf (List.mem_map.mpr ⟨e, (hi.current e).mpr ⟨he, ?_⟩, heid⟩)
              rw [heid]; exact hcd
            have hnfresh : c.id ∉ ids a.fresh := by
              intro hm
              obtain ⟨e, he, heid⟩ := List.mem_map.mp hm
              have := (hi.fresh e he).2.1
              exact hcd (heid ▸ List.mem_map.mpr ⟨_, this, rfl⟩)
            rw [← h1]
            refine ⟨?_, hi.currentNodup, nodup_insert hi.updatedNodup, ?_, ?_, ?_, ?_, ?_, Nat.le_succ_of_le hi.next, ?_⟩
            · intro x
              rw [hi.current x]
              simp only [List.map_append, List.map_cons, List.map_nil, List.mem_append, List.mem_singleton, not_or]
              constructor
              · rintro ⟨h2, h3⟩
                exact ⟨h2, h3, fun he => hnold (he ▸ List.mem_map.mpr ⟨x, h2, rfl⟩)⟩
              · rintro ⟨h2, h3, _⟩
                exact ⟨h2, h3⟩
            · simp only [ids, List.map_append, List.map_cons, List.map_nil]
              rw [List.nodup_append]
              refine ⟨hi.freshNodup, by simp, ?_⟩
              intro x hx y hy he
              rw [List.mem_singleton.mp hy] at he
              exact hnfresh (he ▸ hx)
            · intro x
              simp only [mem_insert, hi.updated x, List.map_append, List.map_cons, List.map_nil, List.mem_append, List.mem_singleton]
              constructor
              · rintro (⟨h2 | h2, h3⟩ | h2)
                · exact Or.inl ⟨h2.1, Or.inl h2.2⟩
                · exact Or.inr (Or.inl h2)
                · exact Or.inr (Or.inr h2)
              · rintro (⟨h2, h3 | h3⟩ | h2 | h2)
                · refine Or.inl ⟨Or.inl ⟨h2, h3⟩, ?_⟩
                  intro he
                  rw [he] at h3
                  exact hcd h3
                · exact absurd (h3 ▸ List.mem_map.mpr ⟨x, h2, rfl⟩) hnold
                · refine Or.inl ⟨Or.inr h2, ?_⟩
                  intro he
                  have he' : x.id = c.id := he
                  exact hnfresh (he' ▸ List.mem_map.mpr ⟨x, h2, rfl⟩)
                · exact Or.inr h2
            · intro x hx
              rcases List.mem_append.mp hx with hx | hx
              · obtain ⟨h2, h3, h4, h5⟩ := hi.fresh x hx
                exact ⟨h2, List.mem_append_left _ h3, h4, Nat.lt_succ_of_lt h5⟩
              · rw [List.mem_singleton.mp hx]
                refine ⟨hnold, List.mem_append_right _ ?_, hi.next, Nat.lt_succ_self _⟩
                rw [List.mem_singleton, ← hty]
            · intro d hd hdo
              simp only [ids, List.map_append, List.map_cons, List.map_nil, List.mem_append, List.mem_singleton]
              rcases List.mem_append.mp hd with hd | hd
              · exact Or.inl (hi.freshAll d hd hdo)
              · rw [List.mem_singleton.mp hd]; exact Or.inr rfl
            · simp only [List.map_append, List.map_cons, List.map_nil]
              rw [List.nodup_append]
              refine ⟨hi.freshHandles, by simp, ?_⟩
              intro x hx y hy he
              rw [List.mem_singleton.mp hy] at he
              obtain ⟨e, he2, rfl⟩ := List.mem_map.mp hx
              have h9 : e.h < a.next := (hi.fresh e he2).2.2.2
              exact absurd h9 (by rw [he]; exact Nat.lt_irrefl _)
            · intro f
              have : f ∈ addFile c.id a.files ↔ f ∈ a.files ∨ f = c.id := by
                unfold addFile
                split
                · rename_i hm
                  exact ⟨Or.inl, fun h => h.elim id (fun he => he ▸ hm)⟩
                · simp
              simp only [this, hi.files f, ids, List.map_append, List.map_cons, List.map_nil, List.mem_append, List.mem_singleton]
              exact or_assoc
          · simp at h1
    cases hs : cfgStep ok a c with
    | mk a1 b =>
      rw [hs] at h
      cases b with
      | true =>
        have := ih (done ++ [c]) a1 a' hn' (key a1 hs) h
        simpa using this
      | false => simp at h

theorem loop_start (old : List Entry) (hold : (ids old).Nodup) (next0 : Handle) (files0 : List Id) :
    LoopInv old next0 files0 [] ⟨old, [], [], next0, files0⟩ := by
  refine ⟨by simp, hold, by simp [ids], by simp [ids], by simp, by simp, by simp, by simp, Nat.le_refl _, by simp [ids]⟩

/-- C50: after a successful update with distinct buffer ids, the buffers are exactly those named in the configuration. -/
theorem C50_set (m m' : Mgr) (hm : (ids m.bufs).Nodup) (cfg : List BufCfg) (streaming : Bool) (ok : Id → Bool)
    (hd : (cfg.map (·.id)).Nodup) (h : update m cfg streaming ok = (m', true)) :
    (ids m'.bufs).Nodup ∧ ∀ k, k ∈ ids m'.bufs ↔ k ∈ cfg.map (·.id) := by
  unfold update at h
  cases hl : cfgLoop ok ⟨m.bufs, [], [], m.next, m.files⟩ cfg with
  | mk a b =>
    simp only [hl] at h
    cases b with
    | false => simp at h
    | true =>
      simp only [if_true, Prod.mk.injEq, and_true] at h
      have inv := loop_inv ok m.bufs hm m.next m.files cfg [] _ a (by simpa using hd) (loop_start m.bufs hm m.next m.files) hl
      rw [List.nil_append] at inv
      rw [← h]
      refine ⟨inv.updatedNodup, ?_⟩
      intro k
      constructor
      · intro hk
        obtain ⟨e, he, rfl⟩ := List.mem_map.mp hk
        rcases (inv.updated e).mp he with h1 | h1
        · exact h1.2
        · exact List.mem_map.mpr ⟨_, (inv.fresh e h1).2.1, rfl⟩
      · intro hk
        obtain ⟨c, hc, rfl⟩ := List.mem_map.mp hk
        by_cases ho : c.id ∈ ids m.bufs
        · obtain ⟨e, he, heid⟩ := List.mem_map.mp ho
          exact List.mem_map.mpr ⟨e, (inv.updated e).mpr (Or.inl ⟨he, heid ▸ hk⟩), heid⟩
        · obtain ⟨e, he, heid⟩ := List.mem_map.mp (inv.freshAll c hc ho)
          exact List.mem_map.mpr ⟨e, (inv.updated e).mpr (Or.inr he), heid⟩

/-- C50: a buffer named before and after keeps its handle, hence its contents (and the type it was created with); a
buffer not named before gets a handle never used before and the type in the configuration. -/
theorem C50_kept (m m' : Mgr) (hm : (ids m.bufs).Nodup) (cfg : List BufCfg) (streaming : Bool) (ok : Id → Bool)
    (hd : (cfg.map (·.id)).Nodup) (h : update m cfg streaming ok = (m', true)) :
    (∀ e ∈ m.bufs, e.id ∈ cfg.map (·.id) → e ∈ m'.bufs) ∧
    (∀ e ∈ m'.bufs, e.id ∈ ids m.bufs → e ∈ m.bufs) ∧
    (∀ e ∈ m'.bufs, e.id ∉ ids m.bufs → m.next ≤ e.h ∧ e.h < m'.next ∧ ⟨e.id, some e.ty⟩ ∈ cfg) := by
  unfold update at h
  cases hl : cfgLoop ok ⟨m.bufs, [], [], m.next, m.files⟩ cfg with
  | mk a b =>
    simp only [hl] at h
    cases b with
    | false => simp at h
    | true =>
      simp only [if_true, Prod.mk.injEq, and_true] at h
      have inv := loop_inv ok m.bufs hm m.next m.files cfg [] _ a (by simpa using hd) (loop_start m.bufs hm m.next m.files) hl
      rw [List.nil_append] at inv
      rw [← h]
      refine ⟨?_, ?_, ?_⟩
      · intro e he hc; exact (inv.updated e).mpr (Or.inl ⟨he, hc⟩)
      · intro e he ho
        rcases (inv.updated e).mp he with h1 | h1
        · exact h1.1
        · exact absurd ho (inv.fresh e h1).1
      · intro e he ho
        rcases (inv.updated e).mp he with h1 | h1
        · exact absurd (List.mem_map.mpr ⟨e, h1.1, rfl⟩) ho
        · obtain ⟨_, h2, h3, h4⟩ := inv.fresh e h1
          exact ⟨h3, Nat.lt_succ_of_lt h4, h2⟩

/-- The new events of an update. -/
def newEvents (m m' : Mgr) : List Event := m'.events.drop m.events.length

/-- How often an id is announced as removed, and as created. -/
def removedCount (id : Id) (l : List Event) : Nat := l.countP fun e => match e with | .removed i => decide (i = id) | _ => false
def createdCount (id : Id) (l : List Event) : Nat := l.countP fun e => match e with | .created i _ _ => decide (i = id) | _ => false

theorem countP_ids (id : Id) (l : List Entry) (hn : (ids l).Nodup) (f : Entry → Event) (p : Event → Bool)
    (hf : ∀ e, p (f e) = decide (e.id = id)) : (l.map f).countP p = if id ∈ ids l then 1 else 0 := by
  induction l with
  | nil => simp [ids]
  | cons x l ih =>
    simp only [ids, List.map_cons, List.nodup_cons] at hn
    rw [List.map_cons, List.countP_cons, ih hn.2, hf]
    by_cases hx : x.id = id
    · have : id ∉ ids l := fun hm => hn.1 (hx ▸ hm)
      rw [if_neg this]
      have h2 : id ∈ ids (x :: l) := List.mem_map.mpr ⟨x, List.mem_cons_self, hx⟩
      rw [if_pos h2]
      simp [hx]
    · have h2 : id ∈ ids (x :: l) ↔ id ∈ ids l := by
        simp only [ids, List.map_cons, List.mem_cons]
        exact ⟨fun h => h.resolve_left (fun he => hx he.symm), Or.inr⟩
      simp only [h2, hx, decide_false]
      simp

theorem countP_map_zero {α : Type} (l : List α) (f : α → Event) (p : Event → Bool) (h : ∀ a, p (f a) = false) :
    (l.map f).countP p = 0 := by
  rw [List.countP_eq_zero]
  intro e he
  obtain ⟨a, _, rfl⟩ := List.mem_map.mp he
  simp [h a]

theorem resolveStream_events (p : Event → Bool) (h1 : ∀ x, p (.streamAdded x) = false) (h2 : ∀ x, p (.streamRemoved x) = false)
    (b : Bool) (s : Option Handle) (n : Handle) : (resolveStream b s n).2.countP p = 0 := by
  cases b <;> cases s <;> simp [resolveStream, h1, h2]

/-- C50: every buffer no longer named is announced as removed exactly once, every buffer newly named is announced as
created exactly once, and no other. -/
theorem C50_events (m m' : Mgr) (hm : (ids m.bufs).Nodup) (cfg : List BufCfg) (streaming : Bool) (ok : Id → Bool)
    (hd : (cfg.map (·.id)).Nodup) (h : update m cfg streaming ok = (m', true)) (id : Id) :
    m.events = m'.events.take m.events.length ∧
    removedCount id (newEvents m m') = (if id ∈ ids m.bufs ∧ id ∉ cfg.map (·.id) then 1 else 0) ∧
    createdCount id (newEvents m m') = (if id ∉ ids m.bufs ∧ id ∈ cfg.map (·.id) then 1 else 0) := by
  unfold update at h
  cases hl : cfgLoop ok ⟨m.bufs, [], [], m.next, m.files⟩ cfg with
  | mk a b =>
    simp only [hl] at h
    cases b with
    | false => simp at h
    | true =>
      simp only [if_true, Prod.mk.injEq, and_true] at h
      have inv := loop_inv ok m.bufs hm m.next m.files cfg [] _ a (by simpa using hd) (loop_start m.bufs hm m.next m.files) hl
      rw [List.nil_append] at inv
      have hne : newEvents m m' = (a.current.map fun e => Event.removed e.id) ++
        (a.fresh.map fun e => Event.created e.id e.ty e.h) ++ (resolveStream streaming m.stream a.next).2 := by
        unfold newEvents
        rw [← h]
        simp only [List.append_assoc, List.drop_left]
      refine ⟨by rw [← h]; simp [List.append_assoc], ?_, ?_⟩
      · rw [hne]
        unfold removedCount
        rw [List.countP_append, List.countP_append, resolveStream_events _ (by simp) (by simp),
          countP_map_zero a.fresh _ _ (by simp), countP_ids id a.current inv.currentNodup _ _ (by simp)]
        have : id ∈ ids a.current ↔ id ∈ ids m.bufs ∧ id ∉ cfg.map (·.id) := by
          constructor
          · intro hk
            obtain ⟨e, he, rfl⟩ := List.mem_map.mp hk
            have := (inv.current e).mp he
            exact ⟨List.mem_map.mpr ⟨e, this.1, rfl⟩, this.2⟩
          · rintro ⟨hk, hc⟩
            obtain ⟨e, he, rfl⟩ := List.mem_map.mp hk
            exact List.mem_map.mpr ⟨e, (inv.current e).mpr ⟨he, hc⟩, rfl⟩
        by_cases hc : id ∈ ids a.current
        · rw [if_pos hc, if_pos (this.mp hc)]
        · rw [if_neg hc, if_neg (fun hh => hc (this.mpr hh))]
      · rw [hne]
        unfold createdCount
        rw [List.countP_append, List.countP_append, resolveStream_events _ (by simp) (by simp),
          countP_map_zero a.current _ _ (by simp), countP_ids id a.fresh inv.freshNodup _ _ (by simp)]
        have : id ∈ ids a.fresh ↔ id ∉ ids m.bufs ∧ id ∈ cfg.map (·.id) := by
          constructor
          · intro hk
            obtain ⟨e, he, rfl⟩ := List.mem_map.mp hk
            have := inv.fresh e he
            exact ⟨this.1, List.mem_map.mpr ⟨_, this.2.1, rfl⟩⟩
          · rintro ⟨hk, hc⟩
            obtain ⟨c, hc', rfl⟩ := List.mem_map.mp hc
            exact inv.freshAll c hc' hk
        by_cases hc : id ∈ ids a.fresh
        · rw [if_pos hc, if_pos (this.mp hc)]
        · rw [if_neg hc, if_neg (fun hh => hc (this.mpr hh))]

/-- C50: the stream buffer exists exactly while streams are configured, is kept while they are, and its creation and removal
are announced. -/
theorem C50_stream (m m' : Mgr) (cfg : List BufCfg) (streaming : Bool) (ok : Id → Bool)
    (h : update m cfg streaming ok = (m', true)) :
    m'.stream.isSome = streaming ∧
    (streaming = true → ∀ x, m.stream = some x → m'.stream = some x) ∧
    (m.stream = none → ∀ x, m'.stream = some x → m'.events.getLast? = some (.streamAdded x)) ∧
    (∀ x, m.stream = some x → m'.stream = none → m'.events.getLast? = some (.streamRemoved x)) := by
  unfold update at h
  cases hl : cfgLoop ok ⟨m.bufs, [], [], m.next, m.files⟩ cfg with
  | mk a b =>
    simp only [hl] at h
    cases b with
    | false => simp at h
    | true =>
      simp only [if_true, Prod.mk.injEq, and_true] at h
      rw [← h]
      cases streaming <;> cases hs : m.stream <;> simp [resolveStream]

/-- C50: a failed update leaves the buffers as they were and announces nothing. -/
theorem C50_failed (m m' : Mgr) (cfg : List BufCfg) (streaming : Bool) (ok : Id → Bool)
    (h : update m cfg streaming ok = (m', false)) :
    m'.bufs = m.bufs ∧ m'.stream = m.stream ∧ m'.events = m.events ∧ m'.doomed = m.doomed := by
  unfold update at h
  cases hl : cfgLoop ok ⟨m.bufs, [], [], m.next, m.files⟩ cfg with
  | mk a b =>
    simp only [hl] at h
    cases b with
    | true => simp at h
    | false =>
      simp only [Bool.false_eq_true, if_false, Prod.mk.injEq, and_true] at h
      rw [← h]
      exact ⟨rfl, rfl, rfl, rfl⟩

/-- C50: an update with known types and creatable buffers succeeds. -/
theorem C50_succeeds (m : Mgr) (cfg : List BufCfg) (streaming : Bool) (ok : Id → Bool)
    (hty : ∀ c ∈ cfg, c.ty ≠ none) (hok : ∀ c ∈ cfg, ok c.id = true) : (update m cfg streaming ok).2 = true := by
  have gen : ∀ (cs : List BufCfg) (a : Acc), (∀ c ∈ cs, c.ty ≠ none) → (∀ c ∈ cs, ok c.id = true) →
      (cfgLoop ok a cs).2 = true := by
    intro cs
    induction cs with
    | nil => intro a _ _; rfl
    | cons c cs ih =>
      intro a h1 h2
      unfold cfgLoop
      have : (cfgStep ok a c).2 = true := by
        unfold cfgStep
        cases hc : c.ty with
        | none => exact absurd hc (h1 c List.mem_cons_self)
        | some ty =>
          simp only
          split
          · rfl
          · rw [if_pos (h2 c List.mem_cons_self)]
      cases hs : cfgStep ok a c with
      | mk a1 b =>
        rw [hs] at this
        simp only at this
        subst this
        exact ih a1 (fun c hc => h1 c (List.mem_cons_of_mem _ hc)) (fun c hc => h2 c (List.mem_cons_of_mem _ hc))
  unfold update
  have := gen cfg ⟨m.bufs, [], [], m.next, m.files⟩ hty hok
  simp only [this, if_true]

/-! ### Over histories -/

def Op.ok : Op → Prop
  | .update cfg _ _ => (cfg.map (·.id)).Nodup
  | .drop _ => True

theorem step_nodup (m : Mgr) (op : Op) (ho : op.ok) (hm : (ids m.bufs).Nodup) : (ids (step m op).bufs).Nodup := by
  cases op with
  | update cfg s ok =>
    simp only [step]
    cases hu : update m cfg s ok with
    | mk m' b =>
      cases b with
      | true => exact (C50_set m m' hm cfg s ok ho hu).1
      | false => rw [(C50_failed m m' cfg s ok hu).1]; exact hm
  | drop h =>
    simp only [step, dropHandle]
    split <;> exact hm

/-- The precondition of the theorems above holds throughout any history of configurations with distinct ids. -/
theorem run_nodup (ops : List Op) (ho : ∀ op ∈ ops, op.ok) : (ids (run ops).bufs).Nodup := by
  have gen : ∀ (ops : List Op) (m : Mgr), (∀ op ∈ ops, op.ok) → (ids m.bufs).Nodup →
      (ids (ops.foldl step m).bufs).Nodup := by
    intro ops
    induction ops with
    | nil => intro m _ h; exact h
    | cons op ops ih =>
      intro m h1 h2
      exact ih _ (fun o ho => h1 o (List.mem_cons_of_mem _ ho)) (step_nodup m op (h1 op List.mem_cons_self) h2)
  exact gen ops _ ho (by simp [Mgr.init, ids])

/-- The last successful configuration. -/
def lastCfg : List Op → Mgr → List Id → List Id
  | [], _, acc => acc
  | .update cfg s ok :: ops, m, acc =>
    lastCfg ops (step m (.update cfg s ok)) (if (update m cfg s ok).2 then cfg.map (·.id) else acc)
  | .drop h :: ops, m, acc => lastCfg ops (step m (.drop h)) acc

/-- C50: after any history of updates, successful or not, the buffers are those of the last successful configuration. -/
theorem C50_history (ops : List Op) (ho : ∀ op ∈ ops, op.ok) (k : Id) :
    k ∈ ids (run ops).bufs ↔ k ∈ lastCfg ops Mgr.init [] := by
  have gen : ∀ (ops : List Op) (m : Mgr) (acc : List Id), (∀ op ∈ ops, op.ok) → (ids m.bufs).Nodup →
      (k ∈ ids m.bufs ↔ k ∈ acc) → (k ∈ ids (ops.foldl step m).bufs ↔ k ∈ lastCfg ops m acc) := by
    intro ops
    induction ops with
    | nil => intro m acc _ _ h; exact h
    | cons op ops ih =>
      intro m acc h1 h2 h3
      have ho1 := h1 op List.mem_cons_self
      have hn := step_nodup m op ho1 h2
      have hrest : ∀ o ∈ ops, o.ok := fun o ho => h1 o (List.mem_cons_of_mem _ ho)
      simp only [List.foldl_cons]
      cases op with
      | update cfg s ok =>
        simp only [lastCfg]
        apply ih _ _ hrest hn
        cases hu : update m cfg s ok with
        | mk m' b =>
          simp only [step, hu]
          cases b with
          | true =>
            simp only [if_true]
            exact (C50_set m m' h2 cfg s ok ho1 hu).2 k
          | false =>
            simp only [Bool.false_eq_true, if_false]
            rw [(C50_failed m m' cfg s ok hu).1]
            exact h3
      | drop h =>
        simp only [lastCfg]
        apply ih _ _ hrest hn
        have : (step m (.drop h)).bufs = m.bufs := by
          simp only [step, dropHandle]
          split <;> rfl
        rw [this]; exact h3
  exact gen ops _ [] ho (by simp [Mgr.init, ids]) (by simp [Mgr.init, ids])

/-- C50: when the last reference to a removed buffer is dropped its file is deleted. -/
theorem C50_file_deleted (m m' : Mgr) (hm : (ids m.bufs).Nodup) (cfg : List BufCfg) (streaming : Bool) (ok : Id → Bool)
    (hd : (cfg.map (·.id)).Nodup) (h : update m cfg streaming ok = (m', true)) (e : Entry) (he : e ∈ m.bufs)
    (hrem : e.id ∉ cfg.map (·.id)) (huniq : ∀ p ∈ m'.doomed, p.1 = e.h → p.2 = e.id) :
    e.id ∉ (dropHandle m' e.h).files ∧ ∀ f, f ≠ e.id → (f ∈ (dropHandle m' e.h).files ↔ f ∈ m'.files) := by
  have hin : (e.h, e.id) ∈ m'.doomed := by
    unfold update at h
    cases hl : cfgLoop ok ⟨m.bufs, [], [], m.next, m.files⟩ cfg with
    | mk a b =>
      simp only [hl] at h
      cases b with
      | false => simp at h
      | true =>
        simp only [if_true, Prod.mk.injEq, and_true] at h
        have inv := loop_inv ok m.bufs hm m.next m.files cfg [] _ a (by simpa using hd) (loop_start m.bufs hm m.next m.files) hl
        rw [List.nil_append] at inv
        rw [← h]
        exact List.mem_append_right _ (List.mem_map.mpr ⟨e, (inv.current e).mpr ⟨he, hrem⟩, rfl⟩)
  unfold dropHandle
  cases hf : m'.doomed.find? fun p => decide (p.1 = e.h) with
  | none =>
    rw [List.find?_eq_none] at hf
    exact absurd (by simp) (hf _ hin)
  | some p =>
    have h1 : p.1 = e.h := by simpa using List.find?_some hf
    have h2 := huniq p (List.mem_of_find?_eq_some hf) h1
    simp only [h2]
    refine ⟨by simp, ?_⟩
    intro f hf
    simp [hf]

/-- A buffer removed and configured again before the last reference to the old one is gone loses its file. -/
theorem C50_readd_violated :
    let m := run [.update [⟨1, some .trigger⟩] false (fun _ => true), .update [] false (fun _ => true),
      .update [⟨1, some .trigger⟩] false (fun _ => true), .drop 0]
    ids m.bufs = [1] ∧ m.files = [] := by decide

/-- With a duplicate id in the configuration the existing buffer is replaced by a second one on the same file, which is
announced, while the first is neither announced as removed nor kept. -/
theorem C50_duplicate_violated :
    let m1 := run [.update [⟨1, some .trigger⟩] false (fun _ => true)]
    let m2 := (update m1 [⟨1, some .trigger⟩, ⟨1, some .trigger⟩] false (fun _ => true)).1
    m1.bufs = [⟨1, .trigger, 0⟩] ∧ m2.bufs = [⟨1, .trigger, 2⟩] ∧ m2.events = [.created 1 .trigger 0, .created 1 .trigger 2] := by
  decide

/-- The type of an existing buffer does not follow the configuration. -/
theorem C50_type_violated :
    let m := run [.update [⟨1, some .trigger⟩] false (fun _ => true), .update [⟨1, some .continuous⟩] false (fun _ => true)]
    m.bufs = [⟨1, .trigger, 0⟩] := by decide

/-! ### Flush requests -/

theorem flushLoop_all (bufs : List Entry) (l : List Id) (h : ∀ i ∈ l, i ∈ ids bufs) :
    (flushLoop bufs l).2 = true ∧ ∀ i ∈ l, ∃ e, find i bufs = some e ∧ e.h ∈ (flushLoop bufs l).1 := by
  induction l with
  | nil => exact ⟨rfl, by simp⟩
  | cons i l ih =>
    obtain ⟨h1, h2⟩ := ih (fun j hj => h j (List.mem_cons_of_mem _ hj))
    unfold flushLoop
    cases hf : find i bufs with
    | none => exact absurd (h i List.mem_cons_self) (find_none.mp hf)
    | some e =>
      refine ⟨h1, ?_⟩
      intro j hj
      rcases List.mem_cons.mp hj with rfl | hj
      · exact ⟨e, hf, List.mem_cons_self⟩
      · obtain ⟨e', h3, h4⟩ := h2 j hj
        exact ⟨e', h3, List.mem_cons_of_mem _ h4⟩

theorem flushLoop_false (bufs : List Entry) (l : List Id) (h : (flushLoop bufs l).2 = true) : ∀ i ∈ l, i ∈ ids bufs := by
  induction l with
  | nil => simp
  | cons i l ih =>
    unfold flushLoop at h
    cases hf : find i bufs with
    | none => rw [hf] at h; simp at h
    | some e =>
      rw [hf] at h
      intro j hj
      rcases List.mem_cons.mp hj with rfl | hj
      · obtain ⟨h1, h2⟩ := find_some hf
        exact List.mem_map.mpr ⟨e, h1, h2⟩
      · exact ih h j hj

/-- C54: a flush request is acknowledged only after every requested buffer (for an empty request: every buffer and the
stream buffer) was flushed; it is acknowledged, and the task goes on, exactly when every requested buffer exists. -/
theorem C54_flush (m : Mgr) (hm : (ids m.bufs).Nodup) (l : List Id) :
    ((flushReq m l).acked = true ↔ ∀ i ∈ l, i ∈ ids m.bufs) ∧
    ((flushReq m l).alive = (flushReq m l).acked) ∧
    ((flushReq m l).acked = true → ∀ e ∈ m.bufs, (l = [] ∨ e.id ∈ l) → e.h ∈ (flushReq m l).flushed) ∧
    ((flushReq m l).acked = true → l = [] → ∀ x, m.stream = some x → x ∈ (flushReq m l).flushed) := by
  have hkey : ((flushReq m l).acked = true ↔ ∀ i ∈ l, i ∈ ids m.bufs) := by
    unfold flushReq
    cases l with
    | nil =>
      have := (flushLoop_all m.bufs (ids m.bufs) (fun _ hi => hi)).1
      simp only [ids] at this ⊢
      simp only [List.isEmpty_nil, if_true, this, List.not_mem_nil, false_implies, implies_true]
    | cons i l =>
      simp only [List.isEmpty_cons, Bool.false_eq_true, if_false]
      constructor
      · intro h
        split at h
        · rename_i h2; exact flushLoop_false _ _ h2
        · simp at h
      · intro h
        rw [if_pos (flushLoop_all m.bufs _ h).1]
  refine ⟨hkey, ?_, ?_, ?_⟩
  · unfold flushReq
    simp only
    cases (flushLoop m.bufs (if l.isEmpty = true then m.bufs.map (·.id) else l)).2 <;> rfl
  · intro hack e he hl
    have hall := hkey.mp hack
    unfold flushReq
    cases l with
    | nil =>
      obtain ⟨h1, h2⟩ := flushLoop_all m.bufs (ids m.bufs) (fun _ hi => hi)
      simp only [List.isEmpty_nil, if_true]
      simp only [ids] at h1 h2
      simp only [h1, if_true]
      obtain ⟨e', h3, h4⟩ := h2 e.id (List.mem_map.mpr ⟨e, he, rfl⟩)
      rw [find_of_mem hm he] at h3
      cases h3
      exact List.mem_append_left _ h4
    | cons i l =>
      obtain ⟨h1, h2⟩ := flushLoop_all m.bufs _ hall
      simp only [List.isEmpty_cons, Bool.false_eq_true, if_false, h1, if_true]
      obtain ⟨e', h3, h4⟩ := h2 e.id (hl.resolve_left (by simp))
      rw [find_of_mem hm he] at h3
      cases h3
      exact List.mem_append_left _ h4
  · intro hack hl x hx
    subst hl
    have := (flushLoop_all m.bufs (ids m.bufs) (fun _ hi => hi)).1
    unfold flushReq
    simp only [ids] at this
    simp [this, hx]

/-- A flush request that names a buffer that does not exist ends the flush task: no later request is served. -/
theorem C54_unknown_violated : (flushReq (run [.update [⟨1, some .trigger⟩] false (fun _ => true)]) [2, 1]) = ⟨[], false, false⟩ := by
  decide

example : (flushReq (run [.update [⟨1, some .trigger⟩, ⟨2, some .continuous⟩] true (fun _ => true)]) []) = ⟨[0, 1, 2], true, true⟩ := by
  decide

example :
    let m := run [.update [⟨1, some .trigger⟩, ⟨2, some .continuous⟩] false (fun _ => true)]
    let m' := (update m [⟨2, some .continuous⟩, ⟨3, some .trigger⟩] true (fun _ => true)).1
    m'.bufs = [⟨2, .continuous, 1⟩, ⟨3, .trigger, 3⟩] ∧
    newEvents m m' = [.removed 1, .created 3 .trigger 3, .streamAdded 4] ∧
    (dropHandle m' 0).files = [2, 3] := by decide

end Verif.Mgr
