import Verif.Stats.Live

/-! C27: the collectors. -/
namespace Verif.Stats

/-- The limit is at most `L` whenever a dynamic metric is fetched. -/
def limitAtMost (L : Nat) (_ : St) : Op → Prop
  | .get true _ _ limit => ∃ l, limit = some l ∧ l ≤ L
  | _ => True

theorem step_coll_sub (s : St) (e : Env) (k : Bool) : ((s.step e).coll k).Sublist (s.coll k) := by
  by_cases h1 : ∃ k t d, s.pc = .snap k t d
  · obtain ⟨k', t, d, hp⟩ := h1
    unfold St.step; rw [hp]; unfold St.stepAt
    cases t with
    | nil => dsimp only; split <;> cases k <;> exact List.Sublist.refl _
    | cons y t => dsimp only; split <;> (try split) <;> cases k <;> exact List.Sublist.refl _
  · by_cases h2 : ∃ k i c t d, s.pc = .check k i c t d
    · obtain ⟨k', i, c, t, d, hp⟩ := h2
      unfold St.step; rw [hp]; unfold St.stepAt
      dsimp only
      split
      · cases k <;> exact List.Sublist.refl _
      · split
        · cases k <;> exact List.Sublist.refl _
        · cases k <;> cases k' <;> first | exact List.Sublist.refl _ | exact List.filter_sublist
    · have := s.step_same e (fun k t d hp => h1 ⟨k, t, d, hp⟩) (fun k i c t d hp => h2 ⟨k, i, c, t, d, hp⟩)
      cases k
      · show (s.step e).stat.Sublist s.stat
        rw [this.2.1]; exact List.Sublist.refl _
      · show (s.step e).dyn.Sublist s.dyn
        rw [this.2.2.1]; exact List.Sublist.refl _

/-- Only fetching a metric makes a collector longer. -/
theorem apply_coll_sub (s : St) (op : Op) (k : Bool) (h : ∀ id kind l, op ≠ .get k id kind l) :
    ((s.apply op).coll k).Sublist (s.coll k) := by
  cases op with
  | get k' id kind limit =>
    have hk : k ≠ k' := by intro e; subst e; exact h id kind limit rfl
    unfold St.apply; dsimp only; unfold St.get
    split
    · split
      · split
        · split <;> cases k <;> exact List.Sublist.refl _
        · exact List.Sublist.refl _
      · split
        · cases k <;> cases k' <;> first | exact absurd rfl hk | exact List.Sublist.refl _
        · exact List.Sublist.refl _
    · exact List.Sublist.refl _
  | record c r => unfold St.apply; dsimp only; unfold St.record; split <;> (try split) <;> (try split) <;> cases k <;> exact List.Sublist.refl _
  | release c => cases k <;> exact List.Sublist.refl _
  | flush => unfold St.apply; dsimp only; split <;> cases k <;> exact List.Sublist.refl _
  | upload => unfold St.apply; dsimp only; split <;> cases k <;> exact List.Sublist.refl _
  | response b =>
    unfold St.apply; dsimp only
    split <;> (try split) <;> (try split) <;> cases k <;> exact List.Sublist.refl _
  | shutdown => unfold St.apply; dsimp only; split <;> cases k <;> exact List.Sublist.refl _
  | task e => exact step_coll_sub s e k
  | crash b => cases k <;> exact List.nil_sublist _
  | damageIndex b => unfold St.apply; dsimp only; split <;> cases k <;> exact List.Sublist.refl _
  | damageFile n b => unfold St.apply; dsimp only; split <;> cases k <;> exact List.Sublist.refl _

/-- C27: a collector whose limit is never above `L` never holds more than `L` metrics, whatever else happens. -/
theorem C27_bounded (L : Nat) (ops : List Op) (h : Along (limitAtMost L) St.init ops) :
    (St.init.run ops).dyn.length ≤ L := by
  refine Along.inv (I := fun s => s.dyn.length ≤ L) ?_ ops _ (Nat.zero_le _) h
  intro s op hs ho
  by_cases hg : ∃ id kind l, op = .get true id kind l
  · obtain ⟨id, kind, limit, rfl⟩ := hg
    obtain ⟨l, hl, hle⟩ := ho
    subst hl
    unfold St.apply; dsimp only; unfold St.get
    split
    · split
      · split
        · split <;> exact hs
        · exact hs
      · split
        · rename_i hlt
          have hlt' : s.dyn.length < l := of_decide_eq_true hlt
          show (_ :: s.dyn).length ≤ L
          simp; omega
        · exact hs
    · exact hs
  · have := apply_coll_sub s op true (fun id kind l e => hg ⟨id, kind, l, e⟩)
    exact Nat.le_trans this.length_le hs

/-- C27: at the limit no new metric is created, also if the limit was lowered in the meantime: nothing changes, and the
caller is told. -/
theorem C27_overflow (s : St) (k : Bool) (id : Id) (kind : Kind) (l : Nat) (hu : s.pc.unlocked k = true)
    (hf : ∀ c, (id, c) ∉ s.coll k) : 
    (l ≤ (s.coll k).length → s.get k id kind (some l) = (s, .overflow)) ∧
    ((s.coll k).length < l → (s.get k id kind (some l)).2 = .handle s.cells.length ∧
      (s.get k id kind (some l)).1.coll k = (id, s.cells.length) :: s.coll k ∧
      (s.get k id kind (some l)).1.cells = s.cells ++ [(id, Metric.new kind)]) := by
  have hnone : findCell id (s.coll k) = none := by
    generalize s.coll k = l at hf
    induction l with
    | nil => rfl
    | cons e l ih =>
      unfold findCell
      rw [if_neg]
      · exact ih (fun c hc => hf c (List.mem_cons_of_mem _ hc))
      · intro e'; exact hf e.2 (by rw [← e']; exact List.mem_cons_self)
  unfold St.get
  rw [if_pos hu, hnone]
  dsimp only
  constructor
  · intro hl
    rw [if_neg (by simp; omega)]
  · intro hl
    rw [if_pos (by simp; omega)]
    cases k <;> exact ⟨rfl, rfl, rfl⟩

/-! ### An existing metric is returned again -/

/-- The collectors are maps, and what the task still has to visit is in the collector it visits. -/
structure Maps (s : St) : Prop where
  stat : (s.stat.map Prod.fst).Nodup
  dyn : (s.dyn.map Prod.fst).Nodup
  snap : ∀ k t d, s.pc = .snap k t d → t.Sublist (s.coll k)
  check : ∀ k id c t d, s.pc = .check k id c t d → ((id, c) :: t).Sublist (s.coll k)

theorem Maps.coll {s : St} (h : Maps s) (k : Bool) : ((s.coll k).map Prod.fst).Nodup := by
  cases k
  · exact h.stat
  · exact h.dyn

theorem Maps.init : Maps St.init := by
  refine ⟨?_, ?_, ?_, ?_⟩ <;> simp [St.init]

theorem Maps.of {s t : St} (h : Maps s) (h1 : t.stat = s.stat) (h2 : t.dyn = s.dyn)
    (h3 : (∀ k x d, t.pc ≠ .snap k x d) ∧ (∀ k i c x d, t.pc ≠ .check k i c x d) ∨ t.pc = s.pc) : Maps t := by
  refine ⟨by rw [h1]; exact h.stat, by rw [h2]; exact h.dyn, ?_, ?_⟩
  · intro k x d e
    rcases h3 with h3 | h3
    · exact absurd e (h3.1 k x d)
    · have := h.snap k x d (h3 ▸ e)
      cases k
      · show x.Sublist t.stat; rw [h1]; exact this
      · show x.Sublist t.dyn; rw [h2]; exact this
  · intro k i c x d e
    rcases h3 with h3 | h3
    · exact absurd e (h3.2 k i c x d)
    · have := h.check k i c x d (h3 ▸ e)
      cases k
      · show ((i, c) :: x).Sublist t.stat; rw [h1]; exact this
      · show ((i, c) :: x).Sublist t.dyn; rw [h2]; exact this

theorem setColl_self (s : St) (k : Bool) (l) : (s.setColl k l).coll k = l := by cases k <;> rfl
theorem setColl_other (s : St) (k : Bool) (l) : (s.setColl k l).coll (!k) = s.coll (!k) := by cases k <;> rfl

/-- Outside of the collectors the task does not enter them. -/
theorem step_pc_outside (s : St) (e : Env) (h1 : ∀ k t d, s.pc ≠ .snap k t d) (h2 : ∀ k i c t d, s.pc ≠ .check k i c t d) :
    (∀ k x d, (s.step e).pc ≠ .snap k x d) ∧ (∀ k i c x d, (s.step e).pc ≠ .check k i c x d) := by
  have hgoto : ∀ (t : St) (pc : Pc), (t.goto pc).pc = pc := fun _ _ => rfl
  have hfail : ∀ (t : St) (c : Cont), (∀ k x d, (t.fail c).pc ≠ .snap k x d) ∧ (∀ k i a x d, (t.fail c).pc ≠ .check k i a x d) := by
    intro t c; cases c <;> exact ⟨fun _ _ _ => nofun, fun _ _ _ _ _ => nofun⟩
  have henter : ∀ (t : St) (c : Cont), (∀ k x d, (t.enter c).pc ≠ .snap k x d) ∧ (∀ k i a x d, (t.enter c).pc ≠ .check k i a x d) := by
    intro t c; cases c <;> exact ⟨fun _ _ _ => nofun, fun _ _ _ _ _ => nofun⟩
  have hmerge : ∀ (t : St) f u ro old d, (∀ k x d', (t.merge f u ro old d).pc ≠ .snap k x d') ∧
      (∀ k i a x d', (t.merge f u ro old d).pc ≠ .check k i a x d') := by
    intro t f u ro old d; unfold St.merge; split <;> exact ⟨fun _ _ _ => nofun, fun _ _ _ _ _ => nofun⟩
  unfold St.step
  generalize hpc : s.pc = pc at h1 h2 ⊢
  unfold St.stepAt
  cases pc with
  | snap k t d => exact absurd rfl (h1 k t d)
  | check k i c t d => exact absurd rfl (h2 k i c t d)
  | idle => rw [hpc]; exact ⟨fun _ _ _ => nofun, fun _ _ _ _ _ => nofun⟩
  | dead => rw [hpc]; exact ⟨fun _ _ _ => nofun, fun _ _ _ _ _ => nofun⟩
  | stopped => rw [hpc]; exact ⟨fun _ _ _ => nofun, fun _ _ _ _ _ => nofun⟩
  | start c =>
    dsimp only; unfold St.start; split
    · exact henter _ _
    · exact ⟨fun _ _ _ => nofun, fun _ _ _ _ _ => nofun⟩
    · exact ⟨fun _ _ _ => nofun, fun _ _ _ _ _ => nofun⟩
  | initRead c =>
    dsimp only; split
    · exact henter _ _
    · exact ⟨fun _ _ _ => nofun, fun _ _ _ _ _ => nofun⟩
  | initRm c =>
    dsimp only; split
    · exact ⟨fun _ _ _ => nofun, fun _ _ _ _ _ => nofun⟩
    · exact hfail _ _
  | initMk c =>
    dsimp only; split
    · exact henter _ _
    · exact hfail _ _
  | decide d => dsimp only; split <;> (try split) <;> exact ⟨fun _ _ _ => nofun, fun _ _ _ _ _ => nofun⟩
  | delOldest d =>
    dsimp only; split
    · exact ⟨fun _ _ _ => nofun, fun _ _ _ _ _ => nofun⟩
    · split
      · exact ⟨fun _ _ _ => nofun, fun _ _ _ _ _ => nofun⟩
      · exact hfail _ _
  | writeIdx d =>
    dsimp only; split
    · split
      · exact hmerge _ _ _ _ _ _
      · exact hfail _ _
    · exact hfail _ _
  | readBack d =>
    dsimp only; split
    · exact ⟨fun _ _ _ => nofun, fun _ _ _ _ _ => nofun⟩
    · split <;> exact hmerge _ _ _ _ _ _
  | writeSnap n u ro old d =>
    dsimp only; split
    · exact ⟨fun _ _ _ => nofun, fun _ _ _ _ _ => nofun⟩
    · exact hfail _ _
    · exact hfail _ _
  | writeIdxEmpty => exact ⟨fun _ _ _ => nofun, fun _ _ _ _ _ => nofun⟩
  | upHead o => dsimp only; split <;> (try split) <;> (try split) <;> exact ⟨fun _ _ _ => nofun, fun _ _ _ _ _ => nofun⟩
  | upWriteIdx o => dsimp only; split <;> exact ⟨fun _ _ _ => nofun, fun _ _ _ _ _ => nofun⟩
  | upRead o => dsimp only; split <;> (try split) <;> (try split) <;> exact ⟨fun _ _ _ => nofun, fun _ _ _ _ _ => nofun⟩
  | upDel o => dsimp only; split <;> (try split) <;> exact ⟨fun _ _ _ => nofun, fun _ _ _ _ _ => nofun⟩
  | upDelIdx o => dsimp only; split <;> exact ⟨fun _ _ _ => nofun, fun _ _ _ _ _ => nofun⟩
  | complete u => dsimp only; split <;> (try split) <;> exact ⟨fun _ _ _ => nofun, fun _ _ _ _ _ => nofun⟩
  | compDel u => dsimp only; split <;> (try split) <;> exact ⟨fun _ _ _ => nofun, fun _ _ _ _ _ => nofun⟩
  | compIdx u => exact ⟨fun _ _ _ => nofun, fun _ _ _ _ _ => nofun⟩

theorem filter_id {l : List (Id × Nat)} {id : Id} (h : id ∉ l.map Prod.fst) : l.filter (fun y => y.1 ≠ id) = l := by
  rw [List.filter_eq_self]
  intro a ha
  simp only [ne_eq, decide_eq_true_eq]
  intro e; exact h (e ▸ List.mem_map_of_mem ha)

theorem Maps.step {s : St} (h : Maps s) (e : Env) : Maps (s.step e) := by
  by_cases h1 : ∃ k t d, s.pc = .snap k t d
  · obtain ⟨k, t, d, hp⟩ := h1
    have hs := h.snap k t d hp
    unfold St.step; rw [hp]; unfold St.stepAt
    cases t with
    | nil =>
      dsimp only; split
      · exact h.of rfl rfl (.inl ⟨fun _ _ _ => nofun, fun _ _ _ _ _ => nofun⟩)
      · refine ⟨h.stat, h.dyn, ?_, ?_⟩
        · intro k t d e; cases e; exact List.Sublist.refl _
        · intro k i c t d e; cases e
    | cons y t =>
      obtain ⟨id, c⟩ := y
      have hs' : t.Sublist (s.coll k) := (List.sublist_cons_self _ _).trans hs
      dsimp only
      split
      · refine ⟨h.stat, h.dyn, ?_, ?_⟩
        · intro k t d e; cases e; exact hs'
        · intro k i c t d e; cases e
      · split
        · refine ⟨h.stat, h.dyn, ?_, ?_⟩
          · intro k t d e; cases e
          · intro k' i c' t' d' e; cases e; exact hs
        · refine ⟨h.stat, h.dyn, ?_, ?_⟩
          · intro k t d e; cases e; exact hs'
          · intro k i c t d e; cases e
  · by_cases h2 : ∃ k i c t d, s.pc = .check k i c t d
    · obtain ⟨k, i, c, t, d, hp⟩ := h2
      have hs := h.check k i c t d hp
      have hs' : t.Sublist (s.coll k) := (List.sublist_cons_self _ _).trans hs
      have hnd := h.coll k
      have hi : i ∉ t.map Prod.fst := by
        have := hnd.sublist (hs.map Prod.fst)
        rw [List.map_cons, List.nodup_cons] at this
        exact this.1
      unfold St.step; rw [hp]; unfold St.stepAt
      dsimp only
      split
      · refine ⟨h.stat, h.dyn, ?_, ?_⟩
        · intro k t d e; cases e; exact hs'
        · intro k i c t d e; cases e
      · split
        · refine ⟨h.stat, h.dyn, ?_, ?_⟩
          · intro k t d e; cases e; exact hs'
          · intro k i c t d e; cases e
        · have hsub : t.Sublist ((s.coll k).filter fun y => y.1 ≠ i) := by
            have := hs'.filter (fun y => decide (y.1 ≠ i))
            rwa [filter_id hi] at this
          cases k
          · refine ⟨h.stat.sublist (List.filter_sublist.map _), h.dyn, ?_, ?_⟩
            · intro k t d e; cases e; exact hsub
            · intro k i c t d e; cases e
          · refine ⟨h.stat, h.dyn.sublist (List.filter_sublist.map _), ?_, ?_⟩
            · intro k t d e; cases e; exact hsub
            · intro k i c t d e; cases e
    · have h1' : ∀ k t d, s.pc ≠ .snap k t d := fun k t d hp => h1 ⟨k, t, d, hp⟩
      have h2' : ∀ k i c t d, s.pc ≠ .check k i c t d := fun k i c t d hp => h2 ⟨k, i, c, t, d, hp⟩
      have := s.step_same e h1' h2'
      exact h.of this.2.1 this.2.2.1 (.inl (step_pc_outside s e h1' h2'))

theorem findCell_notin {id : Id} {l : List (Id × Nat)} (h : findCell id l = none) : id ∉ l.map Prod.fst := by
  induction l with
  | nil => simp
  | cons e l ih =>
    unfold findCell at h
    by_cases he : e.1 = id
    · rw [if_pos he] at h; cases h
    · rw [if_neg he] at h
      simp only [List.map_cons, List.mem_cons, not_or]
      exact ⟨Ne.symm he, ih h⟩

theorem Maps.apply {s : St} (h : Maps s) (op : Op) : Maps (s.apply op) := by
  cases op with
  | get k id kind limit =>
    unfold St.apply; dsimp only; unfold St.get
    split
    · rename_i hu
      split
      · split
        · split
          · exact h.of rfl rfl (.inr rfl)
          · exact h
        · exact h
      · rename_i hnone
        have hni := findCell_notin hnone
        split
        · have hnd : ((((id, s.cells.length) :: s.coll k)).map Prod.fst).Nodup := by
            rw [List.map_cons, List.nodup_cons]; exact ⟨hni, h.coll k⟩
          cases k
          · refine ⟨hnd, h.dyn, ?_, ?_⟩
            · intro k t d e
              have e' : s.pc = .snap k t d := e
              rw [e'] at hu
              cases k
              · simp [Pc.unlocked] at hu
              · exact h.snap _ _ _ e'
            · intro k i c t d e
              have e' : s.pc = .check k i c t d := e
              rw [e'] at hu
              cases k
              · simp [Pc.unlocked] at hu
              · exact h.check _ _ _ _ _ e'
          · refine ⟨h.stat, hnd, ?_, ?_⟩
            · intro k t d e
              have e' : s.pc = .snap k t d := e
              rw [e'] at hu
              cases k
              · exact h.snap _ _ _ e'
              · simp [Pc.unlocked] at hu
            · intro k i c t d e
              have e' : s.pc = .check k i c t d := e
              rw [e'] at hu
              cases k
              · exact h.check _ _ _ _ _ e'
              · simp [Pc.unlocked] at hu
        · exact h
    · exact h
  | record c r =>
    unfold St.apply; dsimp only; unfold St.record
    split <;> (try split) <;> (try split) <;> exact h.of rfl rfl (.inr rfl)
  | release c => exact h.of rfl rfl (.inr rfl)
  | flush =>
    unfold St.apply; dsimp only; split
    · refine ⟨h.stat, h.dyn, ?_, ?_⟩
      · intro k t d e; cases e; exact List.Sublist.refl _
      · intro k i c t d e; cases e
    · exact h
  | upload =>
    unfold St.apply; dsimp only; split
    · exact h.of rfl rfl (.inl ⟨fun _ _ _ => nofun, fun _ _ _ _ _ => nofun⟩)
    · exact h
  | response b =>
    unfold St.apply; dsimp only
    split
    · split
      · split
        · exact h.of rfl rfl (.inl ⟨fun _ _ _ => nofun, fun _ _ _ _ _ => nofun⟩)
        · exact h.of rfl rfl (.inr rfl)
      · exact h
    · exact h
  | shutdown =>
    unfold St.apply; dsimp only; split
    · exact h.of rfl rfl (.inl ⟨fun _ _ _ => nofun, fun _ _ _ _ _ => nofun⟩)
    · exact h
  | task e => exact h.step e
  | crash b =>
    refine ⟨?_, ?_, ?_, ?_⟩
    · show (List.map _ []).Nodup; simp
    · show (List.map _ []).Nodup; simp
    · intro k t d e; cases e
    · intro k i c t d e; cases e
  | damageIndex b => unfold St.apply; dsimp only; split <;> exact h.of rfl rfl (.inr rfl)
  | damageFile n b => unfold St.apply; dsimp only; split <;> exact h.of rfl rfl (.inr rfl)

theorem findCell_mem {id : Id} {c : Nat} {l : List (Id × Nat)} (hn : (l.map Prod.fst).Nodup) (h : (id, c) ∈ l) :
    findCell id l = some c := by
  induction l with
  | nil => cases h
  | cons e l ih =>
    rw [List.map_cons, List.nodup_cons] at hn
    unfold findCell
    rcases List.mem_cons.1 h with h' | h'
    · rw [← h', if_pos rfl]
    · rw [if_neg]
      · exact ih hn.2 h'
      · intro e'; exact hn.1 (e' ▸ List.mem_map_of_mem h')

theorem findCell_some {id : Id} {c : Nat} {l : List (Id × Nat)} (h : findCell id l = some c) : (id, c) ∈ l := by
  induction l with
  | nil => cases h
  | cons e l ih =>
    unfold findCell at h
    by_cases he : e.1 = id
    · rw [if_pos he] at h; cases h; rw [← he]; exact List.mem_cons_self
    · rw [if_neg he] at h; exact List.mem_cons_of_mem _ (ih h)

/-- The process goes on and the handle to the metric is held. -/
def holding (c : Nat) (s : St) : Op → Prop
  | .crash _ => False
  | op => c ∈ (s.apply op).handles ∧ c ∈ s.handles

/-- A metric: where it is, its name and its type. -/
structure Has (k : Bool) (id : Id) (c : Nat) (kind : Kind) (s : St) : Prop where
  maps : Maps s
  here : (id, c) ∈ s.coll k
  cell : ∃ m, s.cells[c]? = some (id, m) ∧ m.kind = kind

theorem set_kind {l : Content} {c i : Nat} {id : Id} {kind : Kind} {e : Id × Metric} {m' : Metric}
    (h : ∃ m, l[c]? = some (id, m) ∧ m.kind = kind) (he : l[i]? = some e) (hm : m'.kind = e.2.kind) :
    ∃ m, (l.set i (e.1, m'))[c]? = some (id, m) ∧ m.kind = kind := by
  obtain ⟨m, h1, h2⟩ := h
  by_cases hic : i = c
  · subst hic
    rw [he] at h1; cases h1
    refine ⟨m', ?_, hm.trans h2⟩
    rw [List.getElem?_set, if_pos rfl, if_pos (List.getElem?_eq_some_iff.1 he).1]
  · refine ⟨m, ?_, h2⟩
    rw [List.getElem?_set, if_neg hic]; exact h1

theorem Metric.new_kind' (k : Kind) : (Metric.new k).kind = k := by cases k <;> rfl
theorem Metric.record_kind' {m m' : Metric} {r : Rec} (h : m.record r = some m') : m'.kind = m.kind := by
  cases m <;> cases r <;> simp only [Metric.record, Option.some.injEq, reduceCtorEq] at h <;> subst h <;> rfl

/-- The cell of a metric keeps its name and type while the process runs. -/
theorem cell_apply {s : St} {c : Nat} {id : Id} {kind : Kind} (h : ∃ m, s.cells[c]? = some (id, m) ∧ m.kind = kind)
    (op : Op) (hop : ∀ b, op ≠ .crash b) : ∃ m, (s.apply op).cells[c]? = some (id, m) ∧ m.kind = kind := by
  cases op with
  | get k id' kind' limit =>
    unfold St.apply; dsimp only; unfold St.get
    split
    · split
      · split
        · split <;> exact h
        · exact h
      · split
        · obtain ⟨m, h1, h2⟩ := h
          refine ⟨m, ?_, h2⟩
          have : (s.cells ++ [(id', Metric.new kind')])[c]? = some (id, m) := by
            rw [List.getElem?_append_left (List.getElem?_eq_some_iff.1 h1).1]; exact h1
          cases k <;> exact this
        · exact h
    · exact h
  | record c' r =>
    unfold St.apply; dsimp only; unfold St.record
    split
    · split
      · rename_i e he
        split
        · rename_i m' hm; exact set_kind h he (Metric.record_kind' hm)
        · exact h
      · exact h
    · exact h
  | release c => exact h
  | flush => unfold St.apply; dsimp only; split <;> exact h
  | upload => unfold St.apply; dsimp only; split <;> exact h
  | response b => unfold St.apply; dsimp only; split <;> (try split) <;> (try split) <;> exact h
  | shutdown => unfold St.apply; dsimp only; split <;> exact h
  | task e =>
    by_cases h1 : ∃ k t d, s.pc = .snap k t d
    · obtain ⟨k, t, d, hp⟩ := h1
      show ∃ m, (s.step e).cells[c]? = _ ∧ _
      unfold St.step; rw [hp]; unfold St.stepAt
      cases t with
      | nil => dsimp only; split <;> exact h
      | cons y t =>
        dsimp only
        split
        · exact h
        · rename_i x hx
          split
          · exact h
          · rename_i m m' hm
            exact set_kind h hx (Metric.snap_kind hm).1
    · by_cases h2 : ∃ k i c t d, s.pc = .check k i c t d
      · obtain ⟨k, i, c', t, d, hp⟩ := h2
        show ∃ m, (s.step e).cells[c]? = _ ∧ _
        unfold St.step; rw [hp]; unfold St.stepAt
        dsimp only
        split
        · exact h
        · split
          · exact h
          · rename_i x hx
            have := set_kind (m' := Metric.new x.2.kind) h hx (Metric.new_kind' _)
            cases k <;> exact this
      · have := s.step_same e (fun k t d hp => h1 ⟨k, t, d, hp⟩) (fun k i c t d hp => h2 ⟨k, i, c, t, d, hp⟩)
        show ∃ m, (s.step e).cells[c]? = _ ∧ _
        rw [this.1]; exact h
  | crash b => exact absurd rfl (hop b)
  | damageIndex b => unfold St.apply; dsimp only; split <;> exact h
  | damageFile n b => unfold St.apply; dsimp only; split <;> exact h

theorem mem_unique {l : List (Id × Nat)} (hn : (l.map Prod.fst).Nodup) {id : Id} {a b : Nat} (ha : (id, a) ∈ l)
    (hb : (id, b) ∈ l) : a = b := by
  have h1 := findCell_mem hn ha
  rw [findCell_mem hn hb] at h1
  cases h1; rfl

theorem Has.apply {k : Bool} {id : Id} {c : Nat} {kind : Kind} {s : St} (h : Has k id c kind s) (op : Op)
    (ho : holding c s op) : Has k id c kind (s.apply op) := by
  have hop : ∀ b, op ≠ .crash b := by intro b e; subst e; exact ho
  refine ⟨h.maps.apply op, ?_, cell_apply h.cell op hop⟩
  cases op with
  | get k' id' kind' limit =>
    unfold St.apply; dsimp only; unfold St.get
    have hh := h.here
    split
    · split
      · split
        · split <;> (cases k <;> exact hh)
        · exact hh
      · split
        · cases k <;> cases k' <;> first | exact List.mem_cons_of_mem _ hh | exact hh
        · exact hh
    · exact hh
  | record c' r =>
    have hh := h.here
    unfold St.apply; dsimp only; unfold St.record
    split <;> (try split) <;> (try split) <;> (cases k <;> exact hh)
  | release c => have hh := h.here; cases k <;> exact hh
  | flush => have hh := h.here; unfold St.apply; dsimp only; split <;> (cases k <;> exact hh)
  | upload => have hh := h.here; unfold St.apply; dsimp only; split <;> (cases k <;> exact hh)
  | response b =>
    have hh := h.here
    unfold St.apply; dsimp only; split <;> (try split) <;> (try split) <;> (cases k <;> exact hh)
  | shutdown => have hh := h.here; unfold St.apply; dsimp only; split <;> (cases k <;> exact hh)
  | task e =>
    have hh := h.here
    show (id, c) ∈ (s.step e).coll k
    by_cases h1 : ∃ k t d, s.pc = .snap k t d
    · obtain ⟨k', t, d, hp⟩ := h1
      unfold St.step; rw [hp]; unfold St.stepAt
      cases t with
      | nil => dsimp only; split <;> (cases k <;> exact hh)
      | cons y t => dsimp only; split <;> (try split) <;> (cases k <;> exact hh)
    · by_cases h2 : ∃ k i c t d, s.pc = .check k i c t d
      · obtain ⟨k', i, c', t, d, hp⟩ := h2
        have hc := h.maps.check k' i c' t d hp
        unfold St.step; rw [hp]; unfold St.stepAt
        dsimp only
        split
        · cases k <;> exact hh
        · rename_i hnh
          split
          · cases k <;> exact hh
          · by_cases hkk : k = k'
            · subst hkk
              have hne : id ≠ i := by
                intro e'
                subst e'
                have := mem_unique (h.maps.coll k) hh (hc.subset List.mem_cons_self)
                subst this
                exact hnh ho.2
              have : (id, c) ∈ (s.coll k).filter fun y => y.1 ≠ i := List.mem_filter.2 ⟨hh, by simpa using hne⟩
              cases k <;> exact this
            · cases k <;> cases k' <;> first | exact absurd rfl hkk | exact hh
      · have := s.step_same e (fun k t d hp => h1 ⟨k, t, d, hp⟩) (fun k i c t d hp => h2 ⟨k, i, c, t, d, hp⟩)
        cases k
        · show (id, c) ∈ (s.step e).stat
          rw [this.2.1]; exact hh
        · show (id, c) ∈ (s.step e).dyn
          rw [this.2.2.1]; exact hh
  | crash b => exact absurd rfl (hop b)
  | damageIndex b => have hh := h.here; unfold St.apply; dsimp only; split <;> (cases k <;> exact hh)
  | damageFile n b => have hh := h.here; unfold St.apply; dsimp only; split <;> (cases k <;> exact hh)

theorem maps_run (ops : List Op) : Maps (St.init.run ops) := by
  have : ∀ (ops : List Op) (s : St), Maps s → Maps (s.run ops) := by
    intro ops
    induction ops with
    | nil => intro s h; exact h
    | cons op ops ih => intro s h; exact ih _ (h.apply op)
  exact this ops _ Maps.init

/-- A metric just handed out. -/
theorem get_has {b : St} {k : Bool} {id : Id} {kind : Kind} {limit : Option Nat} {c : Nat} (hm : Maps b) (hn : Names b)
    (hg : (b.get k id kind limit).2 = .handle c) : Has k id c kind (b.get k id kind limit).1 := by
  have hmap : Maps (b.get k id kind limit).1 := hm.apply (.get k id kind limit)
  unfold St.get at hg hmap ⊢
  by_cases hu : b.pc.unlocked k = true
  · rw [if_pos hu] at hg hmap ⊢
    cases hf : findCell id (b.coll k) with
    | some c' =>
      rw [hf] at hg hmap
      dsimp only at hg hmap ⊢
      have hmem := findCell_some hf
      obtain ⟨m, hcell⟩ : ∃ m, b.cells[c']? = some (id, m) := by
        cases k
        · exact hn.stat _ hmem
        · exact hn.dyn _ hmem
      rw [hcell] at hg hmap ⊢
      dsimp only at hg hmap ⊢
      by_cases hk : m.kind = kind
      · rw [if_pos hk] at hg hmap ⊢
        cases hg
        exact ⟨hmap, by cases k <;> exact hmem, m, hcell, hk⟩
      · rw [if_neg hk] at hg; cases hg
    | none =>
      rw [hf] at hg hmap
      dsimp only at hg hmap ⊢
      by_cases hl : (limit.all fun l => (b.coll k).length < l) = true
      · rw [if_pos hl] at hg hmap ⊢
        cases hg
        refine ⟨hmap, by cases k <;> exact List.mem_cons_self, Metric.new kind, ?_, Metric.new_kind' _⟩
        have : (b.cells ++ [(id, Metric.new kind)])[b.cells.length]? = some (id, Metric.new kind) := by simp
        cases k <;> exact this
      · rw [if_neg hl] at hg; cases hg
  · rw [if_neg hu] at hg; cases hg

/-- C27: after any history, a metric that was handed out is handed out again (the same one, so all its users count
together) for as long as the process runs and a handle to it is held — whatever the limit has become since, and
through any number of flushes; asked for as the other type it is refused, and nothing changes. -/
theorem C27_same_metric (before ops : List Op) (k : Bool) (id : Id) (kind kind' : Kind) (limit limit' : Option Nat) (c : Nat)
    (hg : ((St.init.run before).get k id kind limit).2 = .handle c)
    (hh : Along (holding c) ((St.init.run before).get k id kind limit).1 ops)
    (s : St) (hs : s = ((St.init.run before).get k id kind limit).1.run ops) (hu : s.pc.unlocked k = true) :
    s.get k id kind' limit' = if kind' = kind then ({ s with handles := c :: s.handles }, .handle c) else (s, .changedType) := by
  have hm := maps_run before
  have hn := (run_inv before).1
  generalize St.init.run before = b at hg hh hs hm hn
  have h0 := get_has hm hn hg
  have h1 : Has k id c kind s := by
    rw [hs]
    exact Along.inv (I := Has k id c kind) (fun s op h ho => h.apply op ho) ops _ h0 hh
  obtain ⟨m, hcell, hkind⟩ := h1.cell
  have hfind := findCell_mem (h1.maps.coll k) h1.here
  unfold St.get
  rw [if_pos hu, hfind]
  dsimp only
  rw [hcell]
  dsimp only
  rw [hkind]
  by_cases hk : kind' = kind
  · rw [if_pos hk, if_pos hk.symm]
  · rw [if_neg hk, if_neg (Ne.symm hk)]

/-! ### Recording dynamic metrics -/

def Rec.kind : Rec → Kind
  | .inc _ => .counter
  | .observe _ => .histogram

/-- `DynamicStats::record_dynamic_counter` and `record_dynamic_histogram` (bd-client-stats/src/lib.rs:128-158); `ov` is
the cell of the counter `dynamic_stats_overflow`, held since `new` (109).  The lock is waited for. -/
def St.recordDynamic (s : St) (ov : Nat) (id : Id) (r : Rec) (limit : Option Nat) : St :=
  match s.get true id r.kind limit with
  | (s, .handle c) => (s.apply (.record c r)).apply (.release c)
  | (s, .overflow) => s.apply (.record ov (.inc 1))
  | (s, _) => s

/-- C27: what is recorded for a dynamic metric is recorded if the metric exists with the right type or if there is room
for it; if there is no room the overflow counter is incremented by one instead; if the metric has the other type nothing
is recorded at all. -/
theorem C27_recorded (before : List Op) (s : St) (hs : s = St.init.run before) (ov : Nat) (ovId : Id) (n : Nat) (id : Id) (r : Rec)
    (l : Nat) (hu : s.pc.unlocked true = true) (hov : s.cells[ov]? = some (ovId, .counter n)) (hh : ov ∈ s.handles) :
    let t := s.recordDynamic ov id r (some l)
    (∀ c m, (id, c) ∈ s.dyn → s.cells[c]? = some (id, m) → m.kind = r.kind → t.issued = (id, r.metric) :: s.issued) ∧
    (∀ c m, (id, c) ∈ s.dyn → s.cells[c]? = some (id, m) → m.kind ≠ r.kind → t = s) ∧
    ((∀ c, (id, c) ∉ s.dyn) → s.dyn.length < l → t.issued = (id, r.metric) :: s.issued ∧ t.dyn.length = s.dyn.length + 1) ∧
    ((∀ c, (id, c) ∉ s.dyn) → l ≤ s.dyn.length → t.issued = (ovId, .counter 1) :: s.issued ∧ t.dyn = s.dyn) := by
  have hmaps : Maps s := hs ▸ maps_run before
  have hrec : ∀ (m : Metric), m.kind = r.kind → ∃ m', m.record r = some m' := by
    intro m hm
    cases m <;> cases r <;> simp [Metric.kind, Rec.kind] at hm <;> exact ⟨_, rfl⟩
  refine ⟨?_, ?_, ?_, ?_⟩
  · intro c m hc hcell hk
    obtain ⟨m', hm'⟩ := hrec m hk
    have hget : s.get true id r.kind (some l) = ({ s with handles := c :: s.handles }, .handle c) := by
      unfold St.get
      rw [if_pos hu, show s.coll true = s.dyn from rfl, findCell_mem hmaps.dyn hc]
      dsimp only
      rw [hcell]; dsimp only
      rw [if_pos hk]
    unfold St.recordDynamic
    rw [hget]
    dsimp only
    unfold St.apply; dsimp only
    unfold St.record
    rw [if_pos List.mem_cons_self]
    dsimp only
    rw [hcell]; dsimp only
    rw [hm']
  · intro c m hc hcell hk
    have hget : s.get true id r.kind (some l) = (s, .changedType) := by
      unfold St.get
      rw [if_pos hu, show s.coll true = s.dyn from rfl, findCell_mem hmaps.dyn hc]
      dsimp only
      rw [hcell]; dsimp only
      rw [if_neg hk]
    unfold St.recordDynamic
    rw [hget]
  · intro hn hl
    obtain ⟨h1, h2, h3⟩ := (C27_overflow s true id r.kind l hu hn).2 hl
    have hin : s.cells.length ∈ (s.get true id r.kind (some l)).1.handles := by
      have h1' := h1
      unfold St.get at h1' ⊢
      rw [if_pos hu] at h1' ⊢
      split at h1'
      · rename_i c hf
        exact absurd (findCell_some hf) (hn c)
      · split at h1'
        · rename_i hnone hl2
          rw [if_pos hl2]
          exact List.mem_cons_self
        · cases h1'
    have hiss : (s.get true id r.kind (some l)).1.issued = s.issued := by
      unfold St.get
      rw [if_pos hu]
      split
      · split
        · split <;> rfl
        · rfl
      · split <;> rfl
    unfold St.recordDynamic
    generalize hg : s.get true id r.kind (some l) = g at h1 h2 h3 hin hiss
    obtain ⟨g1, g2⟩ := g
    dsimp only at h1 h2 h3 hin hiss
    subst h1
    dsimp only
    obtain ⟨m', hm'⟩ := hrec (Metric.new r.kind) (Metric.new_kind' _)
    have hcell : g1.cells[s.cells.length]? = some (id, Metric.new r.kind) := by rw [h3]; simp
    unfold St.apply; dsimp only
    unfold St.record
    rw [if_pos hin, hcell]
    dsimp only
    rw [hm']
    dsimp only
    refine ⟨by rw [hiss], ?_⟩
    show (g1.coll true).length = _
    rw [h2]; rfl
  · intro hn hl
    have hget := (C27_overflow s true id r.kind l hu hn).1 hl
    unfold St.recordDynamic
    rw [hget]
    dsimp only
    unfold St.apply; dsimp only
    unfold St.record
    rw [if_pos hh, hov]
    exact ⟨rfl, rfl⟩

/-- A history: the overflow counter is created, two dynamic metrics fill a collector of two. -/
def fillOps : List Op :=
  [.get false "overflow" .counter none, .get true "a" .counter (some 2), .record 1 (.inc 3),
   .get true "b" .histogram (some 2), .record 2 (.observe 7), .release 2]

-- a third metric does not fit and is counted; the existing ones are still served, the first one not as a histogram
example : Along (limitAtMost 2) St.init fillOps ∧
    ((St.init.run fillOps).recordDynamic 0 "c" (.inc 9) (some 2)).issued = ("overflow", .counter 1) :: (St.init.run fillOps).issued ∧
    ((St.init.run fillOps).recordDynamic 0 "b" (.observe 9) (some 0)).issued = ("b", .hist (.inline [9])) :: (St.init.run fillOps).issued ∧
    ((St.init.run fillOps).recordDynamic 0 "a" (.observe 9) (some 5)) = St.init.run fillOps := by
  refine ⟨?_, ?_, ?_, ?_⟩
  · simp [fillOps, Along, limitAtMost]
  all_goals decide +kernel

-- a metric that is held survives two flushes, one that is not is removed by the second one
example :
    let ops : List Op := fillOps ++ (.flush :: List.replicate 20 (.task {})) ++ (.flush :: List.replicate 20 (.task {}))
    (St.init.run ops).pc = .idle ∧ (St.init.run ops).dyn = [("a", 1)] ∧ (St.init.run ops).stat = [("overflow", 0)] := by
  decide +kernel

end Verif.Stats
