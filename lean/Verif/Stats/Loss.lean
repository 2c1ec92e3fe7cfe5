import Verif.Stats.Live

/-! What can be lost when no write fails: the invariant behind the second part of C25. -/
namespace Verif.Stats

/-- The metrics lost for other reasons than these. -/
def St.lostOther (s : St) (ok : Reason → Bool) : Content := ((s.dropped.filter fun p => !ok p.1).map Prod.snd).flatten

/-- The discards the property allows. -/
def allowed : Reason → Bool
  | .limit | .unreadable | .damage => true
  | _ => false

/-- Nothing is held in the list. -/
def Zero (c : Content) : Prop := ∀ id x, cnt id x c = 0

theorem Zero.nil : Zero [] := fun _ _ => rfl

/-- Where the task is while it visits the collectors. -/
def Pc.visits : Pc → Option Bool
  | .snap k _ _ => some k
  | .check k _ _ _ _ => some k
  | _ => none

/-- Every metric has the type its name stands for. -/
def Kinded (κ : Id → Kind) (c : Content) : Prop := ∀ e ∈ c, e.2.kind = κ e.1

theorem Kinded.nil (κ : Id → Kind) : Kinded κ [] := by intro e he; cases he

theorem Kinded.append {κ : Id → Kind} {a b : Content} (ha : Kinded κ a) (hb : Kinded κ b) : Kinded κ (a ++ b) := by
  intro e he
  rcases List.mem_append.1 he with h | h
  · exact ha e h
  · exact hb e h

theorem findMetric_mem {id : Id} {c : Content} {m} (h : findMetric id c = some m) : (id, m) ∈ c := by
  induction c with
  | nil => cases h
  | cons e c ih =>
    unfold findMetric at h
    by_cases he : e.1 = id
    · rw [if_pos he] at h; cases h; rw [← he]; exact List.mem_cons_self
    · rw [if_neg he] at h; exact List.mem_cons_of_mem _ (ih h)

theorem findMetric_none {id : Id} {c : Content} (h : id ∉ c.map Prod.fst) : findMetric id c = none := by
  induction c with
  | nil => rfl
  | cons e c ih =>
    simp only [List.map_cons, List.mem_cons, not_or] at h
    unfold findMetric
    rw [if_neg (Ne.symm h.1)]
    exact ih h.2

theorem Kinded.replace {κ : Id → Kind} {id : Id} {m : Metric} {c : Content} (h : Kinded κ c) (hm : m.kind = κ id) :
    Kinded κ (replaceMetric id m c) := by
  induction c with
  | nil => exact h
  | cons e c ih =>
    unfold replaceMetric
    split
    · intro e' he'
      rcases List.mem_cons.1 he' with h' | h'
      · rw [h']; exact hm
      · exact h e' (List.mem_cons_of_mem _ h')
    · intro e' he'
      rcases List.mem_cons.1 he' with h' | h'
      · rw [h']; exact h e List.mem_cons_self
      · exact ih (fun e he => h e (List.mem_cons_of_mem _ he)) e' h'

theorem Metric.merge_kind {a b r : Metric} (h : a.merge b = some r) : r.kind = a.kind := by
  cases a <;> cases b <;> simp only [Metric.merge, Option.some.injEq, reduceCtorEq] at h <;> subst h <;> rfl

theorem mergeAll_kinded {κ : Id → Kind} {ex d : Content} (he : Kinded κ ex) (hd : Kinded κ d) :
    Kinded κ (mergeAll ex d).1 ∧ (mergeAll ex d).2 = [] := by
  induction d generalizing ex with
  | nil => exact ⟨he, rfl⟩
  | cons y d ih =>
    obtain ⟨id, m⟩ := y
    have hm : m.kind = κ id := hd (id, m) List.mem_cons_self
    have hd' : Kinded κ d := fun e he => hd e (List.mem_cons_of_mem _ he)
    unfold mergeAll
    cases hf : findMetric id ex with
    | none => exact ih (he.append (by intro e he; rw [List.mem_singleton] at he; rw [he]; exact hm)) hd'
    | some m0 =>
      have h0 : m0.kind = κ id := he _ (findMetric_mem hf)
      dsimp only
      cases hr : m0.merge m with
      | none => exact absurd (h0.trans hm.symm) (Metric.merge_none hr)
      | some r => exact ih (he.replace ((Metric.merge_kind hr).trans h0)) hd'

theorem allFiles_mem {n : Nat} {fs : List (Nat × Option File)} {f : File} (h : getFile n fs = some (some f)) :
    ∀ e ∈ f.content, e ∈ allFiles fs := by
  intro e he
  have := getFile_mem h
  unfold allFiles
  rw [List.mem_flatten]
  exact ⟨f.content, List.mem_map.2 ⟨_, this, rfl⟩, he⟩

theorem Kinded.del {κ : Id → Kind} {fs : List (Nat × Option File)} (h : Kinded κ (allFiles fs)) (n : Nat) :
    Kinded κ (allFiles (delFile n fs)) := by
  intro e he
  unfold allFiles delFile at he
  rw [List.mem_flatten] at he
  obtain ⟨l, hl, hel⟩ := he
  obtain ⟨f, hf, rfl⟩ := List.mem_map.1 hl
  apply h
  unfold allFiles
  rw [List.mem_flatten]
  exact ⟨_, List.mem_map.2 ⟨f, (List.mem_filter.1 hf).1, rfl⟩, hel⟩

theorem Kinded.put {κ : Id → Kind} {fs : List (Nat × Option File)} (h : Kinded κ (allFiles fs)) (n : Nat) (f : Option File)
    (hf : Kinded κ (fileContent f)) : Kinded κ (allFiles (putFile n f fs)) := by
  unfold putFile
  rw [allFiles_cons]
  exact hf.append (h.del n)

/-- The invariant. -/
structure Ord (κ : Id → Kind) (own : Id → Bool) (s : St) : Prop where
  kcells : Kinded κ s.cells
  kdelta : Kinded κ s.pc.delta
  kfiles : Kinded κ (allFiles s.files)
  statIds : (s.stat.map Prod.fst).Nodup
  dynIds : (s.dyn.map Prod.fst).Nodup
  statOwn : ∀ p ∈ s.stat, own p.1 = false
  dynOwn : ∀ p ∈ s.dyn, own p.1 = true
  todoIds : (s.pc.todo.map Prod.fst).Nodup
  todoNew : ∀ p ∈ s.pc.todo, p.1 ∉ s.pc.delta.map Prod.fst
  todoOwn : ∀ k, s.pc.visits = some k → ∀ p ∈ s.pc.todo, own p.1 = k
  deltaOwn : s.pc.visits = some false → ∀ e ∈ s.pc.delta, own e.1 = false
  held : ∀ k id c t d, s.pc = .check k id c t d → ∀ e, s.cells[c]? = some e → (∀ x, e.2.count x = 0) ∨ c ∈ s.handles
  lost : Zero (s.lostOther allowed)

theorem Ord.init (κ own) : Ord κ own St.init := by
  refine ⟨Kinded.nil κ, Kinded.nil κ, Kinded.nil κ, ?_, ?_, ?_, ?_, ?_, ?_, ?_, ?_, ?_, Zero.nil⟩ <;>
    simp [St.init, Pc.todo, Pc.visits]

/-- Operations in the orderly histories: no crash; no handle is dropped while the flusher visits the collectors; every
name is used for one type of metric and in one collector; at least two files are allowed; only reading files may
fail. -/
def orderly (κ : Id → Kind) (own : Id → Bool) (s : St) : Op → Prop
  | .crash _ => False
  | .release _ => s.pc.visits = none
  | .get k id kind _ => kind = κ id ∧ own id = k
  | .task e => 2 ≤ e.max ∧ (match s.pc with
      | .initRead _ | .readBack _ | .upRead _ => True
      | _ => e.out = .ok)
  | _ => True

theorem orderly_calm {κ own} {s : St} {op : Op} (h : orderly κ own s op) : calm s op := by
  cases op with
  | task e =>
    refine ⟨h.1, ?_⟩
    have := h.2
    cases hp : s.pc <;> simp_all
  | _ => trivial

theorem lostOther_lose_ok {s : St} {r : Reason} {c : Content} (hr : allowed r = true) :
    (s.lose r c).lostOther allowed = s.lostOther allowed := by
  unfold St.lostOther St.lose
  simp [hr]

theorem lostOther_lose_zero {s : St} {r : Reason} {c : Content} (h : Zero (s.lostOther allowed)) (hc : Zero c) :
    Zero ((s.lose r c).lostOther allowed) := by
  by_cases hr : allowed r = true
  · rw [lostOther_lose_ok hr]; exact h
  · have : (s.lose r c).lostOther allowed = c ++ s.lostOther allowed := by
      unfold St.lostOther St.lose
      simp [hr]
    rw [this]
    intro id x
    rw [cnt_append, hc, h]

/-- Leaving, or staying outside of, the collectors. -/
theorem Ord.out {κ own} {s t : St} (h : Ord κ own s) (h1 : t.cells = s.cells) (h2 : t.stat = s.stat) (h3 : t.dyn = s.dyn)
    (h4 : t.pc.todo = []) (h5 : t.pc.visits = none) (hd : Kinded κ t.pc.delta) (hf : Kinded κ (allFiles t.files))
    (hl : Zero (t.lostOther allowed)) : Ord κ own t :=
  ⟨by rw [h1]; exact h.kcells, hd, hf, by rw [h2]; exact h.statIds, by rw [h3]; exact h.dynIds,
   by rw [h2]; exact h.statOwn, by rw [h3]; exact h.dynOwn, by rw [h4]; simp, by rw [h4]; simp, by rw [h5]; simp,
   by rw [h5]; simp, (by intro k id c t' d e; rw [e] at h5; simp [Pc.visits] at h5), hl⟩

theorem Ord.enter {κ own} {s : St} (h : Ord κ own s) (c : Cont) (hd : Kinded κ c.delta) : Ord κ own (s.enter c) := by
  cases c <;> exact h.out rfl rfl rfl rfl rfl hd h.kfiles h.lost

theorem Ord.merge {κ own} {s : St} (h : Ord κ own s) (f u ro old d) (hd : Kinded κ d) : Ord κ own (s.merge f u ro old d) := by
  unfold St.merge
  split
  · exact h.out rfl rfl rfl rfl rfl (Kinded.nil κ) h.kfiles h.lost
  · exact h.out rfl rfl rfl rfl rfl hd h.kfiles h.lost

theorem addMetric_new {id : Id} {m : Metric} {d : Content} (h : id ∉ d.map Prod.fst) :
    addMetric id m d = (d ++ [(id, m)], []) := by
  unfold addMetric; rw [findMetric_none h]

theorem Kinded.set {κ : Id → Kind} {c : Content} (h : Kinded κ c) {i : Nat} {e : Id × Metric} (he : e.2.kind = κ e.1) :
    Kinded κ (c.set i e) := by
  intro a ha
  rcases List.mem_or_eq_of_mem_set ha with h' | h'
  · exact h a h'
  · rw [h']; exact he

theorem Metric.new_kind (k : Kind) : (Metric.new k).kind = k := by cases k <;> rfl

theorem Ord.step {κ own} {s : St} (h : Ord κ own s) (hb : Bal s) (hn : Names s) (hl : Live s) (e : Env)
    (ho : orderly κ own s (.task e)) : Ord κ own (s.step e) := by
  have hneed := hl.need
  have hk := h.kdelta
  have ho2 := ho.2
  unfold St.step
  generalize hpc : s.pc = pc at hneed hk ho2 ⊢
  unfold St.stepAt
  cases pc with
  | idle => exact h
  | dead => exact h
  | stopped => exact h
  | snap k todo d =>
    have htn := h.todoNew; have hti := h.todoIds; have hto := h.todoOwn k (by rw [hpc]; rfl); have hdo := h.deltaOwn
    rw [hpc] at htn hti hto hdo
    cases todo with
    | nil =>
      dsimp only
      split
      · exact h.out rfl rfl rfl rfl rfl hk h.kfiles h.lost
      · rename_i hkf
        have hkf : k = false := by simpa using hkf
        subst hkf
        have hd0 := hdo rfl
        refine ⟨h.kcells, hk, h.kfiles, h.statIds, h.dynIds, h.statOwn, h.dynOwn, h.dynIds, ?_, ?_, ?_, ?_, h.lost⟩
        · intro p hp hin
          obtain ⟨e', he', hee⟩ := List.mem_map.1 hin
          have h1 := hd0 e' he'
          have h2 := h.dynOwn p hp
          rw [hee] at h1
          rw [h1] at h2
          cases h2
        · intro k hk' p hp
          cases hk'
          exact h.dynOwn p hp
        · intro hv; cases hv
        · intro k id c t d e; cases e
    | cons y t =>
      obtain ⟨id, c⟩ := y
      have hti' : (t.map Prod.fst).Nodup ∧ id ∉ t.map Prod.fst := by
        have hx : ((id :: t.map Prod.fst)).Nodup := hti
        rw [List.nodup_cons] at hx; exact ⟨hx.2, hx.1⟩
      dsimp only
      split
      · exact ⟨h.kcells, hk, h.kfiles, h.statIds, h.dynIds, h.statOwn, h.dynOwn, hti'.1,
          fun p hp => htn p (List.mem_cons_of_mem _ hp),
          (by intro k' hk' p hp; cases hk'; exact hto p (List.mem_cons_of_mem _ hp)),
          hdo, (by intro k id c t d e; cases e), h.lost⟩
      · rename_i x hx
        have hid : x.1 = id := by
          obtain ⟨m0, hm0⟩ := hn.todo (id, c) (by rw [hpc]; exact List.mem_cons_self)
          rw [hx] at hm0; cases hm0; rfl
        have hxk : x.2.kind = κ x.1 := h.kcells x (List.mem_of_getElem? hx)
        split
        · rename_i m' hm
          refine ⟨h.kcells, hk, h.kfiles, h.statIds, h.dynIds, h.statOwn, h.dynOwn, hti, htn, ?_, hdo, ?_, h.lost⟩
          · intro k' hk' p hp; cases hk'; exact hto p hp
          · intro k' id' c' t' d' e' x' hx'
            cases e'
            have hx'' : s.cells[c]? = some x' := hx'
            rw [hx] at hx''; cases hx''
            exact .inl (fun a => (Metric.snap_none hm a).1)
        · rename_i m m' hm
          have hsk := Metric.snap_kind hm
          have hnew : id ∉ d.map Prod.fst := htn (id, c) List.mem_cons_self
          rw [addMetric_new hnew]
          refine ⟨h.kcells.set (hsk.1.trans hxk), ?_, h.kfiles, h.statIds, h.dynIds, h.statOwn, h.dynOwn, hti'.1, ?_, ?_, ?_, ?_, ?_⟩
          · refine Kinded.append hk ?_
            intro e he; rw [List.mem_singleton] at he; rw [he]
            exact (hsk.2 m rfl).trans (hxk.trans (by rw [hid]))
          · intro p hp hin
            have hp' : p ∈ t := hp
            have hin' : p.1 ∈ (d ++ [(id, m)]).map Prod.fst := hin
            rw [List.map_append, List.mem_append] at hin'
            rcases hin' with h' | h'
            · exact htn p (List.mem_cons_of_mem _ hp') h'
            · simp at h'
              exact hti'.2 (h' ▸ List.mem_map_of_mem hp')
          · intro k' hk' p hp; cases hk'; exact hto p (List.mem_cons_of_mem _ hp)
          · intro hv e he
            have he' : e ∈ d ++ [(id, m)] := he
            rcases List.mem_append.1 he' with h' | h'
            · exact hdo hv e h'
            · rw [List.mem_singleton] at h'
              rw [h']
              have := hto (id, c) List.mem_cons_self
              have hk0 : k = false := by cases k <;> first | rfl | cases hv
              rw [hk0] at this; exact this
          · intro k id c t d e; cases e
          · exact lostOther_lose_zero h.lost Zero.nil
  | check k id c todo d =>
    have htn := h.todoNew; have hti := h.todoIds; have hto := h.todoOwn k (by rw [hpc]; rfl); have hdo := h.deltaOwn
    rw [hpc] at htn hti hto hdo
    have hti' : (todo.map Prod.fst).Nodup := by
      have hx : ((id :: todo.map Prod.fst)).Nodup := hti
      rw [List.nodup_cons] at hx; exact hx.2
    have hplain : ∀ s' : St, Ord κ own s' → True := fun _ _ => trivial
    dsimp only
    split
    · exact ⟨h.kcells, hk, h.kfiles, h.statIds, h.dynIds, h.statOwn, h.dynOwn, hti',
        fun p hp => htn p (List.mem_cons_of_mem _ hp),
        (by intro k' hk' p hp; cases hk'; exact hto p (List.mem_cons_of_mem _ hp)),
        hdo, (by intro k id c t d e; cases e), h.lost⟩
    · rename_i hnh
      split
      · exact ⟨h.kcells, hk, h.kfiles, h.statIds, h.dynIds, h.statOwn, h.dynOwn, hti',
          fun p hp => htn p (List.mem_cons_of_mem _ hp),
          (by intro k' hk' p hp; cases hk'; exact hto p (List.mem_cons_of_mem _ hp)),
          hdo, (by intro k id c t d e; cases e), h.lost⟩
      · rename_i x hx
        have hxk : x.2.kind = κ x.1 := h.kcells x (List.mem_of_getElem? hx)
        have hz : ∀ a, x.2.count a = 0 := by
          rcases h.held k id c todo d hpc x hx with h' | h'
          · exact h'
          · exact absurd h' hnh
        have hcells : Kinded κ (s.cells.set c (x.1, Metric.new x.2.kind)) := h.kcells.set (by rw [Metric.new_kind]; exact hxk)
        have hlost : Zero (({ s with cells := s.cells.set c (x.1, Metric.new x.2.kind) }.lose .race [x]).lostOther allowed) := by
          refine lostOther_lose_zero h.lost ?_
          intro i a; simp [cnt, hz]
        cases k
        · exact ⟨hcells, hk, h.kfiles, h.statIds.sublist (List.filter_sublist.map _), h.dynIds,
            fun p hp => h.statOwn p (List.mem_filter.1 hp).1, h.dynOwn, hti', fun p hp => htn p (List.mem_cons_of_mem _ hp),
            (by intro k' hk' p hp; cases hk'; exact hto p (List.mem_cons_of_mem _ hp)), hdo,
            (by intro k id c t d e; cases e), hlost⟩
        · exact ⟨hcells, hk, h.kfiles, h.statIds, h.dynIds.sublist (List.filter_sublist.map _),
            h.statOwn, fun p hp => h.dynOwn p (List.mem_filter.1 hp).1, hti', fun p hp => htn p (List.mem_cons_of_mem _ hp),
            (by intro k' hk' p hp; cases hk'; exact hto p (List.mem_cons_of_mem _ hp)), hdo,
            (by intro k id c t d e; cases e), hlost⟩
  | start c =>
    dsimp only
    unfold St.start
    split
    · exact h.enter c hk
    · exact h.out rfl rfl rfl rfl rfl hk h.kfiles h.lost
    · rename_i hf
      cases c with
      | flush d => exact absurd hf hneed.1
      | upload o => exact absurd hf hneed.1
      | complete u => have := hneed.1; rw [hf] at this; cases this
  | initRead c =>
    dsimp only; split
    · refine Ord.enter ?_ c hk
      exact ⟨h.kcells, h.kdelta, h.kfiles, h.statIds, h.dynIds, h.statOwn, h.dynOwn, h.todoIds, h.todoNew, h.todoOwn,
        h.deltaOwn, h.held, h.lost⟩
    · exact h.out rfl rfl rfl rfl rfl hk h.kfiles h.lost
  | initRm c =>
    dsimp only; split
    · exact h.out rfl rfl rfl rfl rfl hk (Kinded.nil κ) (by
        rw [show ∀ s : St, (s.goto (.initMk c)).lostOther allowed = s.lostOther allowed from fun _ => rfl,
          lostOther_lose_ok rfl]; exact h.lost)
    · rename_i hne; exact absurd ho2 hne
  | initMk c =>
    dsimp only; split
    · refine Ord.enter ?_ c hk
      exact ⟨h.kcells, h.kdelta, h.kfiles, h.statIds, h.dynIds, h.statOwn, h.dynOwn, h.todoIds, h.todoNew, h.todoOwn,
        h.deltaOwn, h.held, h.lost⟩
    · rename_i hne; exact absurd ho2 hne
  | decide d => dsimp only; split <;> (try split) <;> exact h.out rfl rfl rfl rfl rfl hk h.kfiles h.lost
  | delOldest d =>
    obtain ⟨_, hlen, _⟩ := hneed
    dsimp only; split
    · rename_i hi; rw [hi] at hlen; simp at hlen
    · split
      · exact h.out rfl rfl rfl rfl rfl hk (h.kfiles.del _) (by
          rw [show ∀ s : St, ((s.push e).goto (.writeIdx d)).lostOther allowed = s.lostOther allowed from fun _ => rfl,
            lostOther_lose_ok rfl]; exact h.lost)
      · rename_i hne; exact absurd ho2 hne
  | writeIdx d =>
    obtain ⟨_, hne, _⟩ := hneed
    dsimp only; split
    · split
      · refine Ord.merge ?_ _ _ _ _ _ hk
        exact ⟨h.kcells, h.kdelta, h.kfiles, h.statIds, h.dynIds, h.statOwn, h.dynOwn, h.todoIds, h.todoNew, h.todoOwn,
          h.deltaOwn, h.held, h.lost⟩
      · rename_i hi; rw [List.getLast?_eq_none_iff] at hi; exact absurd hi hne
    · rename_i hne; exact absurd ho2 hne
  | readBack d =>
    obtain ⟨_, hne, _⟩ := hneed
    dsimp only; split
    · rename_i hi; rw [List.getLast?_eq_none_iff] at hi; exact absurd hi hne
    · split <;> exact h.merge _ _ _ _ _ hk
  | writeSnap n u ro old d =>
    have hw := hb.write _ _ _ _ _ hpc
    have hold : Kinded κ old := by
      cases ro with
      | true => exact fun e he => h.kfiles e (allFiles_mem (hw.1 rfl) e he)
      | false => rw [hw.2 rfl]; exact Kinded.nil κ
    have hm := mergeAll_kinded hold hk
    dsimp only; split
    · refine h.out rfl rfl rfl rfl rfl (Kinded.nil κ) (h.kfiles.put _ _ hm.1) ?_
      show Zero (St.lostOther _ allowed)
      refine lostOther_lose_zero ?_ (by rw [show (mergeAll old d).2 = [] from hm.2]; exact Zero.nil)
      rw [lostOther_lose_ok rfl]; exact h.lost
    · rename_i hne; rw [ho2] at hne; cases hne
    · rename_i hne; rw [ho2] at hne; cases hne
  | writeIdxEmpty =>
    have ho2 : e.out = .ok := ho2
    dsimp only
    rw [ho2]
    exact h.out rfl rfl rfl rfl rfl hk h.kfiles h.lost
  | upHead o => dsimp only; split <;> (try split) <;> (try split) <;> exact h.out rfl rfl rfl rfl rfl hk h.kfiles h.lost
  | upWriteIdx o =>
    dsimp only; split
    · exact h.out rfl rfl rfl rfl rfl hk h.kfiles h.lost
    · rename_i hne; exact absurd ho2 hne
  | upRead o => dsimp only; split <;> (try split) <;> (try split) <;> exact h.out rfl rfl rfl rfl rfl hk h.kfiles h.lost
  | upDel o =>
    dsimp only; split
    · exact h.out rfl rfl rfl rfl rfl hk h.kfiles h.lost
    · split
      · exact h.out rfl rfl rfl rfl rfl hk (h.kfiles.del _) (by
          rw [show ∀ s : St, (s.goto (.upDelIdx o)).lostOther allowed = s.lostOther allowed from fun _ => rfl,
            lostOther_lose_ok rfl]; exact h.lost)
      · exact h.out rfl rfl rfl rfl rfl hk h.kfiles h.lost
  | upDelIdx o =>
    dsimp only; split
    · exact h.out rfl rfl rfl rfl rfl hk h.kfiles h.lost
    · rename_i hne; exact absurd ho2 hne
  | complete u => dsimp only; split <;> (try split) <;> exact h.out rfl rfl rfl rfl rfl hk h.kfiles h.lost
  | compDel u =>
    dsimp only; split
    · exact h.out rfl rfl rfl rfl rfl hk h.kfiles h.lost
    · split
      · exact h.out rfl rfl rfl rfl rfl hk (h.kfiles.del _) h.lost
      · exact h.out rfl rfl rfl rfl rfl hk h.kfiles h.lost
  | compIdx u =>
    have ho2 : e.out = .ok := ho2
    dsimp only
    rw [ho2]
    exact h.out rfl rfl rfl rfl rfl hk h.kfiles h.lost

theorem findCell_none {id : Id} {l : List (Id × Nat)} (h : findCell id l = none) : id ∉ l.map Prod.fst := by
  induction l with
  | nil => simp
  | cons e l ih =>
    unfold findCell at h
    by_cases he : e.1 = id
    · rw [if_pos he] at h; cases h
    · rw [if_neg he] at h
      simp only [List.map_cons, List.mem_cons, not_or]
      exact ⟨Ne.symm he, ih h⟩

theorem Ord.get {κ own} {s : St} (h : Ord κ own s) (hn : Names s) (k : Bool) (id : Id) (kind : Kind) (limit : Option Nat)
    (hk : kind = κ id) (ho : own id = k) : Ord κ own (s.get k id kind limit).1 := by
  unfold St.get
  split
  · split
    · split
      · split
        · exact ⟨h.kcells, h.kdelta, h.kfiles, h.statIds, h.dynIds, h.statOwn, h.dynOwn, h.todoIds, h.todoNew, h.todoOwn,
            h.deltaOwn, (by
              intro k id c t d e x hx
              rcases h.held k id c t d e x hx with h' | h'
              · exact .inl h'
              · exact .inr (List.mem_cons_of_mem _ h')), h.lost⟩
        · exact h
      · exact h
    · rename_i hnone
      split
      · have hc : Kinded κ (s.cells ++ [(id, Metric.new kind)]) := h.kcells.append (by
          intro e he; rw [List.mem_singleton] at he; rw [he, Metric.new_kind]; exact hk)
        have hheld : ∀ k' id' c t d, s.pc = .check k' id' c t d → ∀ e, (s.cells ++ [(id, Metric.new kind)])[c]? = some e →
            (∀ x, e.2.count x = 0) ∨ c ∈ s.cells.length :: s.handles := by
          intro k' id' c t d e x hx
          by_cases hlt : c < s.cells.length
          · rw [List.getElem?_append_left hlt] at hx
            rcases h.held k' id' c t d e x hx with h' | h'
            · exact .inl h'
            · exact .inr (List.mem_cons_of_mem _ h')
          · obtain ⟨m, hm⟩ := hn.todo (id', c) (by rw [e]; exact List.mem_cons_self)
            exact absurd (List.getElem?_eq_some_iff.1 hm).1 hlt
        have hni := findCell_none hnone
        cases k
        · exact ⟨hc, h.kdelta, h.kfiles, List.nodup_cons.2 ⟨hni, h.statIds⟩, h.dynIds,
            (by intro p hp; rcases List.mem_cons.1 hp with h' | h'
                · rw [h']; exact ho
                · exact h.statOwn p h'), h.dynOwn, h.todoIds, h.todoNew, h.todoOwn, h.deltaOwn, hheld, h.lost⟩
        · exact ⟨hc, h.kdelta, h.kfiles, h.statIds, List.nodup_cons.2 ⟨hni, h.dynIds⟩, h.statOwn,
            (by intro p hp; rcases List.mem_cons.1 hp with h' | h'
                · rw [h']; exact ho
                · exact h.dynOwn p h'), h.todoIds, h.todoNew, h.todoOwn, h.deltaOwn, hheld, h.lost⟩
      · exact h
  · exact h

theorem Metric.record_kind {m m' : Metric} {r : Rec} (h : m.record r = some m') : m'.kind = m.kind := by
  cases m <;> cases r <;> simp only [Metric.record, Option.some.injEq, reduceCtorEq] at h <;> subst h <;> rfl

theorem Ord.record {κ own} {s : St} (h : Ord κ own s) (c : Nat) (r : Rec) : Ord κ own (s.record c r) := by
  unfold St.record
  split
  · rename_i hc
    split
    · rename_i x hx
      split
      · rename_i m hm
        refine ⟨h.kcells.set ((Metric.record_kind hm).trans (h.kcells x (List.mem_of_getElem? hx))), h.kdelta, h.kfiles,
          h.statIds, h.dynIds, h.statOwn, h.dynOwn, h.todoIds, h.todoNew, h.todoOwn, h.deltaOwn, ?_, h.lost⟩
        intro k id c' t d e y hy
        by_cases hcc : c = c'
        · subst hcc; exact .inr hc
        · rw [List.getElem?_set, if_neg hcc] at hy
          exact h.held k id c' t d e y hy
      · exact h
    · exact h
  · exact h

theorem Ord.apply {κ own} {s : St} (h : Ord κ own s) (hb : Bal s) (hn : Names s) (hl : Live s) (op : Op)
    (ho : orderly κ own s op) : Ord κ own (s.apply op) := by
  cases op with
  | get k id kind limit => exact h.get hn k id kind limit ho.1 ho.2
  | record c r => exact h.record c r
  | release c =>
    exact ⟨h.kcells, h.kdelta, h.kfiles, h.statIds, h.dynIds, h.statOwn, h.dynOwn, h.todoIds, h.todoNew, h.todoOwn,
      h.deltaOwn, (by
        intro k id c t d e
        have e' : s.pc = .check k id c t d := e
        have : s.pc.visits = none := ho
        rw [e'] at this; cases this), h.lost⟩
  | flush =>
    unfold St.apply; dsimp only; split
    · refine ⟨h.kcells, Kinded.nil κ, h.kfiles, h.statIds, h.dynIds, h.statOwn, h.dynOwn, h.statIds, ?_, ?_, ?_, ?_, h.lost⟩
      · intro p _ hin; cases hin
      · intro k hk; cases hk; exact h.statOwn
      · intro _ e he; cases he
      · intro k id c t d e; cases e
    · exact h
  | upload =>
    unfold St.apply; dsimp only; split
    · exact h.out rfl rfl rfl rfl rfl (Kinded.nil κ) h.kfiles h.lost
    · exact h
  | response b =>
    unfold St.apply; dsimp only; split
    · split
      · split
        · exact h.out rfl rfl rfl rfl rfl (Kinded.nil κ) h.kfiles h.lost
        · exact ⟨h.kcells, h.kdelta, h.kfiles, h.statIds, h.dynIds, h.statOwn, h.dynOwn, h.todoIds, h.todoNew, h.todoOwn,
            h.deltaOwn, h.held, h.lost⟩
      · exact h
    · exact h
  | shutdown =>
    unfold St.apply; dsimp only; split
    · exact h.out rfl rfl rfl rfl rfl (Kinded.nil κ) h.kfiles h.lost
    · exact h
  | task e => exact h.step hb hn hl e ho
  | crash b => exact absurd ho id
  | damageIndex b =>
    unfold St.apply; dsimp only; split
    · exact ⟨h.kcells, h.kdelta, h.kfiles, h.statIds, h.dynIds, h.statOwn, h.dynOwn, h.todoIds, h.todoNew, h.todoOwn,
        h.deltaOwn, h.held, h.lost⟩
    · exact h
  | damageFile n b =>
    unfold St.apply; dsimp only; split
    · refine ⟨h.kcells, h.kdelta, ?_, h.statIds, h.dynIds, h.statOwn, h.dynOwn, h.todoIds, h.todoNew, h.todoOwn,
        h.deltaOwn, h.held, by rw [lostOther_lose_ok rfl]; exact h.lost⟩
      cases b
      · exact h.kfiles.del n
      · exact h.kfiles.put n none (Kinded.nil κ)
    · exact h

end Verif.Stats
