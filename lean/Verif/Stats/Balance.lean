import Verif.Stats.Task
import Verif.Stats.StoreProps

/-! Conservation of metrics through the pipeline: the invariant behind C25. -/
namespace Verif.Stats

/-! ### Files -/

theorem getFile_mem {n : Nat} {fs : List (Nat × Option File)} {f} (h : getFile n fs = some f) : (n, f) ∈ fs := by
  induction fs with
  | nil => cases h
  | cons e fs ih =>
    unfold getFile at h
    by_cases he : e.1 = n
    · rw [if_pos he] at h; cases h; rw [← he]; exact List.mem_cons_self
    · rw [if_neg he] at h; exact List.mem_cons_of_mem _ (ih h)

theorem getFile_none {n : Nat} {fs : List (Nat × Option File)} : getFile n fs = none ↔ n ∉ fs.map Prod.fst := by
  induction fs with
  | nil => simp [getFile]
  | cons e fs ih =>
    unfold getFile
    by_cases he : e.1 = n
    · rw [if_pos he]; simp [he]
    · rw [if_neg he, ih]; simp [Ne.symm he]

theorem getFile_del_self (n : Nat) (fs : List (Nat × Option File)) : getFile n (delFile n fs) = none := by
  rw [getFile_none]; simp [delFile]

theorem getFile_del_ne {n m : Nat} (h : m ≠ n) (fs : List (Nat × Option File)) :
    getFile m (delFile n fs) = getFile m fs := by
  induction fs with
  | nil => rfl
  | cons e fs ih =>
    unfold delFile at *
    by_cases he : e.1 = n
    · rw [List.filter_cons_of_neg (by simpa using he), ih]
      have : e.1 ≠ m := by rw [he]; exact Ne.symm h
      rw [getFile, if_neg this]
    · rw [List.filter_cons_of_pos (by simpa using he)]
      unfold getFile
      rw [ih]

theorem getFile_put_self (n : Nat) (f) (fs : List (Nat × Option File)) : getFile n (putFile n f fs) = some f := by
  simp [putFile, getFile]

theorem getFile_put_ne {n m : Nat} (h : m ≠ n) (f) (fs : List (Nat × Option File)) :
    getFile m (putFile n f fs) = getFile m fs := by
  unfold putFile
  rw [getFile, if_neg (Ne.symm h)]
  exact getFile_del_ne h fs

theorem nodup_del {n : Nat} {fs : List (Nat × Option File)} (h : (fs.map Prod.fst).Nodup) :
    ((delFile n fs).map Prod.fst).Nodup :=
  h.sublist (List.filter_sublist.map _)

theorem nodup_put {n : Nat} {f} {fs : List (Nat × Option File)} (h : (fs.map Prod.fst).Nodup) :
    ((putFile n f fs).map Prod.fst).Nodup := by
  unfold putFile
  rw [List.map_cons, List.nodup_cons]
  exact ⟨by simp [delFile], nodup_del h⟩

theorem allFiles_cons (e : Nat × Option File) (fs) : allFiles (e :: fs) = fileContent e.2 ++ allFiles fs := rfl

theorem cnt_del {n : Nat} {fs : List (Nat × Option File)} (h : (fs.map Prod.fst).Nodup) (id : Id) (x : Atom) :
    cnt id x (allFiles (delFile n fs)) + cnt id x (contentAt n fs) = cnt id x (allFiles fs) := by
  induction fs with
  | nil => rfl
  | cons e fs ih =>
    rw [List.map_cons, List.nodup_cons] at h
    have := ih h.2
    by_cases he : e.1 = n
    · have hn : n ∉ fs.map Prod.fst := he ▸ h.1
      have e1 : delFile n (e :: fs) = delFile n fs := by unfold delFile; rw [List.filter_cons_of_neg (by simpa using he)]
      have e2 : contentAt n (e :: fs) = fileContent e.2 := by unfold contentAt getFile; rw [if_pos he]
      have e3 : contentAt n fs = [] := by unfold contentAt; rw [getFile_none.2 hn]
      rw [e1, e2, allFiles_cons, cnt_append]
      rw [e3] at this
      simp only [cnt] at this; omega
    · have e1 : delFile n (e :: fs) = e :: delFile n fs := by
        unfold delFile; rw [List.filter_cons_of_pos (by simpa using he)]
      have e2 : contentAt n (e :: fs) = contentAt n fs := by
        unfold contentAt; rw [getFile, if_neg he]
      rw [e1, e2, allFiles_cons, allFiles_cons, cnt_append, cnt_append]; omega

theorem cnt_put {n : Nat} {f} {fs : List (Nat × Option File)} (h : (fs.map Prod.fst).Nodup) (id : Id) (x : Atom) :
    cnt id x (allFiles (putFile n f fs)) + cnt id x (contentAt n fs) = cnt id x (allFiles fs) + cnt id x (fileContent f) := by
  have := cnt_del (n := n) h id x
  unfold putFile
  rw [allFiles_cons, cnt_append]; simp only; omega

theorem cnt_set {l : Content} {c : Nat} {e : Id × Metric} (h : l[c]? = some e) (m : Metric) (id : Id) (x : Atom) :
    cnt id x (l.set c (e.1, m)) + cnt id x [e] = cnt id x l + cnt id x [(e.1, m)] := by
  induction l generalizing c with
  | nil => simp at h
  | cons a l ih =>
    cases c with
    | zero => simp at h; subst h; simp only [List.set_cons_zero, cnt]; omega
    | succ c =>
      simp at h
      have := ih h
      simp only [List.set_cons_succ, cnt] at this ⊢; omega

/-! ### The collectors and their cells -/

/-- Every entry of a collector (or of what is left to visit) points to a metric of its own name. -/
def Named (cells : Content) (l : List (Id × Nat)) : Prop := ∀ p ∈ l, ∃ m, cells[p.2]? = some (p.1, m)

/-- The entries the task still has in hand while it visits a collector. -/
def Pc.todo : Pc → List (Id × Nat)
  | .snap _ t _ => t
  | .check _ id c t _ => (id, c) :: t
  | _ => []

structure Names (s : St) : Prop where
  stat : Named s.cells s.stat
  dyn : Named s.cells s.dyn
  todo : Named s.cells s.pc.todo

theorem Named.nil (cells : Content) : Named cells [] := by intro p hp; cases hp

theorem Named.set {cells : Content} {l : List (Id × Nat)} (h : Named cells l) {c : Nat} {e : Id × Metric}
    (hc : cells[c]? = some e) (m : Metric) : Named (cells.set c (e.1, m)) l := by
  intro p hp
  obtain ⟨m', hm⟩ := h p hp
  by_cases hpc : c = p.2
  · subst hpc
    rw [hm] at hc; cases hc
    refine ⟨m, ?_⟩
    rw [List.getElem?_set, if_pos rfl, if_pos]
    exact (List.getElem?_eq_some_iff.1 hm).1
  · exact ⟨m', by rw [List.getElem?_set, if_neg hpc]; exact hm⟩

theorem Named.append {cells : Content} {l : List (Id × Nat)} (h : Named cells l) (b : Content) : Named (cells ++ b) l := by
  intro p hp
  obtain ⟨m, hm⟩ := h p hp
  exact ⟨m, by rw [List.getElem?_append_left (List.getElem?_eq_some_iff.1 hm).1]; exact hm⟩

theorem Named.filter {cells : Content} {l : List (Id × Nat)} (h : Named cells l) (q : Id × Nat → Bool) :
    Named cells (l.filter q) := fun p hp => h p (List.mem_filter.1 hp).1

theorem Named.tail {cells : Content} {l : List (Id × Nat)} {a} (h : Named cells (a :: l)) : Named cells l :=
  fun p hp => h p (List.mem_cons_of_mem _ hp)

theorem Names.init : Names St.init := ⟨Named.nil _, Named.nil _, Named.nil _⟩

/-- Only the collectors, the cells and what is left to visit matter. -/
theorem Names.of_eq {s t : St} (h : Names s) (h1 : t.cells = s.cells) (h2 : t.stat = s.stat) (h3 : t.dyn = s.dyn)
    (h4 : t.pc.todo = []) : Names t :=
  ⟨by rw [h1, h2]; exact h.stat, by rw [h1, h3]; exact h.dyn, by rw [h4]; exact Named.nil _⟩

theorem St.fail_same (s : St) (c : Cont) :
    (s.fail c).cells = s.cells ∧ (s.fail c).stat = s.stat ∧ (s.fail c).dyn = s.dyn ∧ (s.fail c).pc.todo = [] ∧
    (s.fail c).handles = s.handles := by
  cases c <;> exact ⟨rfl, rfl, rfl, rfl, rfl⟩

theorem St.enter_same (s : St) (c : Cont) :
    (s.enter c).cells = s.cells ∧ (s.enter c).stat = s.stat ∧ (s.enter c).dyn = s.dyn ∧ (s.enter c).pc.todo = [] ∧
    (s.enter c).handles = s.handles := by
  cases c <;> exact ⟨rfl, rfl, rfl, rfl, rfl⟩

theorem St.start_same (s : St) (c : Cont) :
    (s.start c).cells = s.cells ∧ (s.start c).stat = s.stat ∧ (s.start c).dyn = s.dyn ∧ (s.start c).pc.todo = [] ∧
    (s.start c).handles = s.handles := by
  unfold St.start
  split
  · exact s.enter_same c
  · exact ⟨rfl, rfl, rfl, rfl, rfl⟩
  · exact ⟨rfl, rfl, rfl, rfl, rfl⟩

theorem St.merge_same (s : St) (f : PFile) (u : Nat) (ro : Bool) (old d : Content) :
    (s.merge f u ro old d).cells = s.cells ∧ (s.merge f u ro old d).stat = s.stat ∧
    (s.merge f u ro old d).dyn = s.dyn ∧ (s.merge f u ro old d).pc.todo = [] ∧
    (s.merge f u ro old d).handles = s.handles := by
  unfold St.merge; split <;> exact ⟨rfl, rfl, rfl, rfl, rfl⟩

theorem St.writeIndex_same (s : St) (o : Out) :
    (s.writeIndex o).cells = s.cells ∧ (s.writeIndex o).stat = s.stat ∧ (s.writeIndex o).dyn = s.dyn ∧
    (s.writeIndex o).handles = s.handles := by
  cases o <;> exact ⟨rfl, rfl, rfl, rfl⟩

/-- While it is not visiting the collectors the task does not touch them. -/
theorem St.step_same (s : St) (e : Env) (h1 : ∀ k t d, s.pc ≠ .snap k t d) (h2 : ∀ k i c t d, s.pc ≠ .check k i c t d) :
    (s.step e).cells = s.cells ∧ (s.step e).stat = s.stat ∧ (s.step e).dyn = s.dyn ∧ (s.step e).pc.todo = [] ∧
    (s.step e).handles = s.handles := by
  unfold St.step
  generalize hpc : s.pc = pc
  unfold St.stepAt
  cases pc with
  | snap k t d => exact absurd hpc (h1 k t d)
  | check k i c t d => exact absurd hpc (h2 k i c t d)
  | idle => exact ⟨rfl, rfl, rfl, by show s.pc.todo = []; rw [hpc]; rfl, rfl⟩
  | dead => exact ⟨rfl, rfl, rfl, by show s.pc.todo = []; rw [hpc]; rfl, rfl⟩
  | stopped => exact ⟨rfl, rfl, rfl, by show s.pc.todo = []; rw [hpc]; rfl, rfl⟩
  | start c => exact s.start_same c
  | initRead c =>
    dsimp only; split
    · exact St.enter_same _ c
    · exact ⟨rfl, rfl, rfl, rfl, rfl⟩
  | initRm c =>
    dsimp only; split
    · exact ⟨rfl, rfl, rfl, rfl, rfl⟩
    · exact s.fail_same c
  | initMk c =>
    dsimp only; split
    · exact St.enter_same _ c
    · exact s.fail_same c
  | decide d => dsimp only; split <;> (try split) <;> exact ⟨rfl, rfl, rfl, rfl, rfl⟩
  | delOldest d =>
    dsimp only; split
    · exact ⟨rfl, rfl, rfl, rfl, rfl⟩
    · split
      · exact ⟨rfl, rfl, rfl, rfl, rfl⟩
      · exact s.fail_same _
  | writeIdx d =>
    dsimp only; split
    · split
      · exact St.merge_same _ _ _ _ _ _
      · exact s.fail_same _
    · have h := s.writeIndex_same e.out
      have h' := (s.writeIndex e.out).fail_same (.flush d)
      exact ⟨h'.1.trans h.1, h'.2.1.trans h.2.1, h'.2.2.1.trans h.2.2.1, h'.2.2.2.1, h'.2.2.2.2.trans h.2.2.2⟩
  | readBack d =>
    dsimp only; split
    · exact ⟨rfl, rfl, rfl, rfl, rfl⟩
    · split <;> exact St.merge_same _ _ _ _ _ _
  | writeSnap n u ro old d =>
    dsimp only; split
    · exact ⟨rfl, rfl, rfl, rfl, rfl⟩
    · exact s.fail_same _
    · exact St.fail_same _ _
  | writeIdxEmpty => have h := s.writeIndex_same e.out; exact ⟨h.1, h.2.1, h.2.2.1, rfl, h.2.2.2⟩
  | upHead o => dsimp only; split <;> (try split) <;> (try split) <;> exact ⟨rfl, rfl, rfl, rfl, rfl⟩
  | upWriteIdx o =>
    dsimp only; split
    · exact ⟨rfl, rfl, rfl, rfl, rfl⟩
    · have h := s.writeIndex_same e.out; exact ⟨h.1, h.2.1, h.2.2.1, rfl, h.2.2.2⟩
  | upRead o => dsimp only; split <;> (try split) <;> (try split) <;> exact ⟨rfl, rfl, rfl, rfl, rfl⟩
  | upDel o => dsimp only; split <;> (try split) <;> exact ⟨rfl, rfl, rfl, rfl, rfl⟩
  | upDelIdx o =>
    dsimp only; split
    · exact ⟨rfl, rfl, rfl, rfl, rfl⟩
    · have h := s.writeIndex_same e.out; exact ⟨h.1, h.2.1, h.2.2.1, rfl, h.2.2.2⟩
  | complete u => dsimp only; split <;> (try split) <;> exact ⟨rfl, rfl, rfl, rfl, rfl⟩
  | compDel u => dsimp only; split <;> (try split) <;> exact ⟨rfl, rfl, rfl, rfl, rfl⟩
  | compIdx u => have h := s.writeIndex_same e.out; exact ⟨h.1, h.2.1, h.2.2.1, rfl, h.2.2.2⟩

theorem Names.step {s : St} (h : Names s) (e : Env) : Names (s.step e) := by
  by_cases hs : (∃ k t d, s.pc = .snap k t d) ∨ ∃ k i c t d, s.pc = .check k i c t d
  · have htd := h.todo
    rcases hs with ⟨k, t, d, hpc⟩ | ⟨k, i, c, t, d, hpc⟩
    · rw [hpc] at htd
      unfold St.step
      rw [hpc]
      unfold St.stepAt
      cases t with
      | nil =>
        dsimp only; split
        · exact h.of_eq rfl rfl rfl rfl
        · exact ⟨h.stat, h.dyn, h.dyn⟩
      | cons y t =>
        obtain ⟨id, c⟩ := y
        dsimp only
        split
        · exact ⟨h.stat, h.dyn, htd.tail⟩
        · rename_i x hx
          split
          · exact ⟨h.stat, h.dyn, htd⟩
          · exact ⟨h.stat.set hx _, h.dyn.set hx _, htd.tail.set hx _⟩
    · rw [hpc] at htd
      unfold St.step
      rw [hpc]
      unfold St.stepAt
      dsimp only
      split
      · exact ⟨h.stat, h.dyn, htd.tail⟩
      · split
        · exact ⟨h.stat, h.dyn, htd.tail⟩
        · rename_i x hx
          cases k
          · exact ⟨(h.stat.filter _).set hx _, h.dyn.set hx _, htd.tail.set hx _⟩
          · exact ⟨h.stat.set hx _, (h.dyn.filter _).set hx _, htd.tail.set hx _⟩
  · have := s.step_same e (fun k t d e => hs (.inl ⟨k, t, d, e⟩)) (fun k i c t d e => hs (.inr ⟨k, i, c, t, d, e⟩))
    exact h.of_eq this.1 this.2.1 this.2.2.1 this.2.2.2.1

theorem Names.get {s : St} (h : Names s) (k : Bool) (id : Id) (kind : Kind) (limit : Option Nat) :
    Names (s.get k id kind limit).1 := by
  unfold St.get
  split
  · split
    · split
      · split
        · exact ⟨h.stat, h.dyn, h.todo⟩
        · exact h
      · exact h
    · split
      · have hn : Named (s.cells ++ [(id, Metric.new kind)]) [(id, s.cells.length)] := by
          intro p hp
          rw [List.mem_singleton] at hp; subst hp
          exact ⟨Metric.new kind, by simp⟩
        cases k
        · refine ⟨?_, h.dyn.append _, h.todo.append _⟩
          intro p hp
          rcases List.mem_cons.1 hp with hp | hp
          · exact hn p (by rw [hp]; simp)
          · exact h.stat.append _ p hp
        · refine ⟨h.stat.append _, ?_, h.todo.append _⟩
          intro p hp
          rcases List.mem_cons.1 hp with hp | hp
          · exact hn p (by rw [hp]; simp)
          · exact h.dyn.append _ p hp
      · exact h
  · exact h

theorem Names.record {s : St} (h : Names s) (c : Nat) (r : Rec) : Names (s.record c r) := by
  unfold St.record
  split
  · split
    · rename_i x hx
      split
      · exact ⟨h.stat.set hx _, h.dyn.set hx _, h.todo.set hx _⟩
      · exact h
    · exact h
  · exact h

theorem Names.apply {s : St} (h : Names s) (op : Op) : Names (s.apply op) := by
  cases op with
  | get k id kind limit => exact h.get k id kind limit
  | record c r => exact h.record c r
  | release c => exact ⟨h.stat, h.dyn, h.todo⟩
  | flush => unfold St.apply; dsimp only; split; exact ⟨h.stat, h.dyn, h.stat⟩; exact h
  | upload => unfold St.apply; dsimp only; split; exact h.of_eq rfl rfl rfl rfl; exact h
  | response b =>
    unfold St.apply; dsimp only; split
    · split
      · split
        · exact h.of_eq rfl rfl rfl rfl
        · exact ⟨h.stat, h.dyn, h.todo⟩
      · exact h
    · exact h
  | shutdown => unfold St.apply; dsimp only; split; exact h.of_eq rfl rfl rfl rfl; exact h
  | task e => exact h.step e
  | crash b => exact ⟨Named.nil _, Named.nil _, Named.nil _⟩
  | damageIndex b => unfold St.apply; dsimp only; split; exact ⟨h.stat, h.dyn, h.todo⟩; exact h
  | damageFile n b => unfold St.apply; dsimp only; split; exact ⟨h.stat, h.dyn, h.todo⟩; exact h

/-! ### The invariant -/

/-- All metrics recorded are accounted for: in memory, in the hands of the flusher, in a file, acknowledged or lost. -/
def St.accounted (s : St) (id : Id) (x : Atom) : Nat :=
  cnt id x s.cells + cnt id x s.pc.delta + cnt id x (allFiles s.files) + cnt id x (s.acked.map Prod.snd).flatten +
    cnt id x (s.dropped.map Prod.snd).flatten

structure Bal (s : St) : Prop where
  nodup : (s.files.map Prod.fst).Nodup
  write : ∀ n u ro old d, s.pc = .writeSnap n u ro old d →
    (ro = true → getFile n s.files = some (some ⟨u, old⟩)) ∧ (ro = false → old = [])
  bal : ∀ id x, cnt id x s.issued = s.accounted id x

theorem Bal.init : Bal St.init := ⟨by simp [St.init], by intros; simp_all [St.init], fun _ _ => rfl⟩

theorem flatten_lose (r : Reason) (c : Content) (l : List (Reason × Content)) :
    (((r, c) :: l).map Prod.snd).flatten = c ++ (l.map Prod.snd).flatten := rfl

theorem flatten_ack (r : Nat) (c : Content) (l : List (Nat × Content)) :
    (((r, c) :: l).map Prod.snd).flatten = c ++ (l.map Prod.snd).flatten := rfl

theorem Pc.delta_writeSnap {n u ro old d} : (Pc.writeSnap n u ro old d).delta = d := rfl

/-- Moves that touch neither the files nor the metrics, except that the task's metrics may be dropped. -/
theorem Bal.fail {s : St} {c : Cont} (h : Bal s) (hd : s.pc.delta = c.delta) : Bal (s.fail c) := by
  cases c with
  | flush d =>
    refine ⟨h.nodup, by intros; simp_all [St.fail, St.goto, St.lose], ?_⟩
    intro id x
    have := h.bal id x
    simp only [St.accounted, hd] at this
    simp only [St.accounted, St.fail, St.goto, St.lose, flatten_lose, cnt_append, Cont.delta, Pc.delta, cnt] at this ⊢
    omega
  | upload o =>
    refine ⟨h.nodup, by intros; simp_all [St.fail, St.goto], ?_⟩
    intro id x
    have := h.bal id x
    simp only [St.accounted, hd] at this
    simp only [St.accounted, St.fail, St.goto, Cont.delta, Pc.delta, cnt] at this ⊢
    omega
  | complete u =>
    refine ⟨h.nodup, by intros; simp_all [St.fail, St.goto], ?_⟩
    intro id x
    have := h.bal id x
    simp only [St.accounted, hd] at this
    simp only [St.accounted, St.fail, St.goto, Cont.delta, Pc.delta, cnt] at this ⊢
    omega

/-- A move of the task to another place with the same metrics in hand, not to a write. -/
theorem Bal.goto {s : St} {pc : Pc} (h : Bal s) (hd : s.pc.delta = pc.delta)
    (hw : ∀ n u ro old d, pc ≠ .writeSnap n u ro old d) : Bal (s.goto pc) := by
  refine ⟨h.nodup, fun n u ro old d e => absurd e (hw n u ro old d), ?_⟩
  intro id x
  have := h.bal id x
  simp only [St.accounted, St.goto, hd] at this ⊢
  exact this

/-- Fields that do not matter. -/
theorem Bal.idx {s : St} (h : Bal s) (fm : FmState) (idx : List PFile) (inflight : Option Nat) (di : IndexFile) (fresh : Nat)
    (up : List Upload) (st dy : List (Id × Nat)) (hs : List Nat) :
    Bal { s with fm := fm, idx := idx, inflight := inflight, dIndex := di, fresh := fresh, uploads := up, stat := st,
                 dyn := dy, handles := hs } :=
  ⟨h.nodup, h.write, h.bal⟩

theorem Bal.writeIndex {s : St} (h : Bal s) (o : Out) : Bal (s.writeIndex o) := by
  cases o
  · exact h.idx s.fm s.idx s.inflight _ s.fresh s.uploads s.stat s.dyn s.handles
  · exact h
  · exact h.idx s.fm s.idx s.inflight _ s.fresh s.uploads s.stat s.dyn s.handles

theorem writeIndex_pc (s : St) (o : Out) : (s.writeIndex o).pc = s.pc := by cases o <;> rfl
theorem writeIndex_files (s : St) (o : Out) : (s.writeIndex o).files = s.files := by cases o <;> rfl
theorem writeIndex_idx (s : St) (o : Out) : (s.writeIndex o).idx = s.idx := by cases o <;> rfl

theorem Bal.enter {s : St} {c : Cont} (h : Bal s) (hd : s.pc.delta = c.delta) : Bal (s.enter c) := by
  cases c <;> exact h.goto (by rw [hd]; rfl) (by intros; simp)

theorem Bal.merge {s : St} {f : PFile} {u : Nat} {ro : Bool} {old d : Content} (h : Bal s) (hd : s.pc.delta = d)
    (hro : (ro = true → getFile f.name s.files = some (some ⟨u, old⟩)) ∧ (ro = false → old = [])) :
    Bal (s.merge f u ro old d) := by
  unfold St.merge
  split
  · rename_i he
    have := mergeAll_empty (List.isEmpty_iff.1 he)
    refine Bal.goto (h.idx s.fm _ s.inflight s.dIndex s.fresh s.uploads s.stat s.dyn s.handles) ?_ (by intros; simp)
    show s.pc.delta = []
    rw [hd]; exact this.2
  · refine ⟨h.nodup, ?_, ?_⟩
    · intro n u' ro' old' d' e
      cases e; exact hro
    · intro id x
      have := h.bal id x
      simp only [St.accounted, hd] at this
      simp only [St.accounted, St.goto, Pc.delta_writeSnap] at this ⊢
      exact this

/-- A file is deleted and its metrics are lost. -/
theorem Bal.delLose {s : St} (h : Bal s) (n : Nat) (r : Reason) (idx : List PFile) (hw : ∀ n u ro old d, s.pc ≠ .writeSnap n u ro old d) :
    Bal ({ s with files := delFile n s.files, idx := idx }.lose r (contentAt n s.files)) := by
  refine ⟨nodup_del h.nodup, fun n u ro old d e => absurd e (hw n u ro old d), ?_⟩
  intro id x
  have := h.bal id x
  have := cnt_del (n := n) h.nodup id x
  simp only [St.accounted, St.lose, flatten_lose, cnt_append] at *
  omega

theorem Bal.start {s : St} {c : Cont} (h : Bal s) (hd : s.pc.delta = c.delta) : Bal (s.start c) := by
  unfold St.start
  split
  · exact h.enter hd
  · exact Bal.goto (h.idx _ s.idx s.inflight s.dIndex s.fresh s.uploads s.stat s.dyn s.handles) hd (by intros; simp)
  · refine ⟨h.nodup, by intros; simp_all [St.die, St.goto, St.lose], ?_⟩
    intro id x
    have := h.bal id x
    simp only [St.accounted, hd] at this
    simp only [St.accounted, St.die, St.goto, St.lose, flatten_lose, cnt_append, Pc.delta, cnt] at this ⊢
    omega

theorem Bal.step {s : St} (h : Bal s) (hn : Names s) (e : Env) : Bal (s.step e) := by
  unfold St.step
  generalize hpc : s.pc = pc
  unfold St.stepAt
  cases pc with
  | idle => exact h
  | dead => exact h
  | stopped => exact h
  | snap k todo d =>
    have hd : s.pc.delta = d := by rw [hpc]; rfl
    cases todo with
    | nil => dsimp only; split <;> exact h.goto hd (by intros; simp)
    | cons y todo =>
      obtain ⟨id, c⟩ := y
      dsimp only
      split
      · exact h.goto hd (by intros; simp)
      · rename_i x hx
        split
        · exact h.goto hd (by intros; simp)
        · rename_i m m' hm
          refine ⟨h.nodup, by intros; simp_all [St.lose, St.goto], ?_⟩
          intro i a
          have h1 := h.bal i a
          have h2 := cnt_set hx m' i a
          have h3 := Metric.snap_some hm a
          have h4 := cnt_addMetric id m d i a
          simp only [St.accounted, hd] at h1
          simp only [St.accounted, St.lose, St.goto, flatten_lose, cnt_append, Pc.delta] at h1 ⊢
          obtain ⟨m0, hm0⟩ := hn.todo (id, c) (by rw [hpc]; exact List.mem_cons_self)
          rw [hx] at hm0
          have hm1 : x = (id, m0) := Option.some.inj hm0
          subst hm1
          have h2' : cnt i a (s.cells.set c (id, m')) + cnt i a [(id, m0)] = cnt i a s.cells + cnt i a [(id, m')] := h2
          have h3' : m.count a = m0.count a ∧ m'.count a = 0 := h3
          simp only [cnt, h3'.1] at h4
          simp only [cnt, h3'.2, ite_self] at h2'
          clear h2 h3
          dsimp only at h1 h2' h4 ⊢
          omega
  | check k id c todo d =>
    have hd : s.pc.delta = d := by rw [hpc]; rfl
    dsimp only
    split
    · exact h.goto hd (by intros; simp)
    · split
      · exact h.goto hd (by intros; simp)
      · rename_i x hx
        have h2 := cnt_set hx (Metric.new x.2.kind)
        have key : Bal ({ s with cells := s.cells.set c (x.1, Metric.new x.2.kind) }.lose .race [x]) := by
          refine ⟨h.nodup, h.write, ?_⟩
          intro i a
          have h1 := h.bal i a
          have h3 := h2 i a
          have h4 := Metric.count_new x.2.kind a
          simp only [St.accounted, St.lose, flatten_lose, cnt_append] at h1 ⊢
          simp only [cnt, h4, ite_self] at h3 ⊢
          omega
        cases k
        · exact Bal.goto (key.idx s.fm s.idx s.inflight s.dIndex s.fresh s.uploads _ s.dyn s.handles) hd (by intros; simp)
        · exact Bal.goto (key.idx s.fm s.idx s.inflight s.dIndex s.fresh s.uploads s.stat _ s.handles) hd (by intros; simp)
  | start c => exact h.start (by rw [hpc]; rfl)
  | initRead c =>
    have hd : s.pc.delta = c.delta := by rw [hpc]; rfl
    dsimp only
    split
    · exact Bal.enter (h.idx _ _ s.inflight s.dIndex s.fresh s.uploads s.stat s.dyn s.handles) hd
    · exact h.goto hd (by intros; simp)
  | initRm c =>
    have hd : s.pc.delta = c.delta := by rw [hpc]; rfl
    dsimp only
    split
    · refine ⟨by simp [St.goto, St.lose], by intros; simp_all [St.goto, St.lose], ?_⟩
      intro id x
      have := h.bal id x
      simp only [St.accounted, hd] at this
      simp only [St.accounted, St.goto, St.lose, flatten_lose, cnt_append, Pc.delta] at this ⊢
      rw [show allFiles [] = [] from rfl]
      simp only [cnt]; omega
    · exact h.fail hd
  | initMk c =>
    have hd : s.pc.delta = c.delta := by rw [hpc]; rfl
    dsimp only
    split
    · exact Bal.enter (h.idx _ _ s.inflight s.dIndex s.fresh s.uploads s.stat s.dyn s.handles) hd
    · exact h.fail hd
  | decide d =>
    have hd : s.pc.delta = d := by rw [hpc]; rfl
    dsimp only
    split
    · split
      · exact Bal.goto (h.idx s.fm _ s.inflight s.dIndex s.fresh s.uploads s.stat s.dyn s.handles) hd (by intros; simp)
      · exact Bal.goto (h.idx s.fm _ s.inflight s.dIndex _ s.uploads s.stat s.dyn s.handles) hd (by intros; simp)
    · exact h.goto hd (by intros; simp)
  | delOldest d =>
    have hd : s.pc.delta = d := by rw [hpc]; rfl
    dsimp only
    split
    · refine ⟨h.nodup, by intros; simp_all [St.die, St.goto, St.lose], ?_⟩
      intro id x
      have := h.bal id x
      simp only [St.accounted, hd] at this
      simp only [St.accounted, St.die, St.goto, St.lose, flatten_lose, cnt_append, Pc.delta, cnt] at this ⊢
      omega
    · rename_i f rest _
      split
      · have := h.delLose f.name .limit rest (by intros; simp [hpc])
        exact Bal.goto (this.idx s.fm _ s.inflight s.dIndex _ s.uploads s.stat s.dyn s.handles) hd (by intros; simp)
      · exact h.fail hd
  | writeIdx d =>
    have hd : s.pc.delta = d := by rw [hpc]; rfl
    dsimp only
    split
    · split
      · exact Bal.merge (h.writeIndex _) hd ⟨by simp, fun _ => rfl⟩
      · exact h.fail hd
    · exact Bal.fail (h.writeIndex _) (by rw [writeIndex_pc]; exact hd)
  | readBack d =>
    have hd : s.pc.delta = d := by rw [hpc]; rfl
    dsimp only
    split
    · refine ⟨h.nodup, by intros; simp_all [St.die, St.goto, St.lose], ?_⟩
      intro id x
      have := h.bal id x
      simp only [St.accounted, hd] at this
      simp only [St.accounted, St.die, St.goto, St.lose, flatten_lose, cnt_append, Pc.delta, cnt] at this ⊢
      omega
    · split
      · rename_i x _ hf
        exact h.merge hd ⟨fun _ => hf, by simp⟩
      · exact h.merge hd ⟨by simp, fun _ => rfl⟩
  | writeSnap n u ro old d =>
    have hd : s.pc.delta = d := by rw [hpc]; rfl
    have hw := h.write _ _ _ _ _ hpc
    dsimp only
    split
    · refine ⟨nodup_put h.nodup, by intros; simp_all [St.goto, St.lose], ?_⟩
      intro i a
      have h1 := h.bal i a
      have h2 := cnt_put (n := n) (f := some ⟨u, (mergeAll old d).1⟩) h.nodup i a
      have h3 := cnt_mergeAll old d i a
      simp only [St.accounted, hd] at h1
      simp only [St.accounted, St.goto, St.lose, flatten_lose, cnt_append, Pc.delta, fileContent] at h1 h2 ⊢
      cases ro with
      | true =>
        have : contentAt n s.files = old := by unfold contentAt; rw [hw.1 rfl]; rfl
        simp only [this, if_true, cnt] at h2 ⊢; omega
      | false =>
        have := hw.2 rfl
        subst this
        simp only [cnt, Bool.false_eq_true, if_false] at h3 ⊢; omega
    · exact h.fail hd
    · have key : Bal ({ s with files := putFile n none s.files, pc := .decide d }.lose .unreadable (contentAt n s.files)) := by
        refine ⟨nodup_put h.nodup, by intros; simp_all [St.lose], ?_⟩
        intro i a
        have h1 := h.bal i a
        have h2 := cnt_put (n := n) (f := none) h.nodup i a
        simp only [St.accounted, hd] at h1
        simp only [St.accounted, St.lose, flatten_lose, cnt_append, Pc.delta, fileContent, cnt] at h1 h2 ⊢
        omega
      exact key.fail (c := .flush d) rfl
  | writeIdxEmpty =>
    exact Bal.goto (h.writeIndex _) (by rw [writeIndex_pc, hpc]; rfl) (by intros; simp)
  | upHead old =>
    have hd : s.pc.delta = [] := by rw [hpc]; rfl
    dsimp only
    split
    · exact h.goto hd (by intros; simp)
    · split
      · exact h.goto hd (by intros; simp)
      · split
        · exact Bal.goto (h.idx s.fm _ s.inflight s.dIndex s.fresh s.uploads s.stat s.dyn s.handles) hd (by intros; simp)
        · exact h.goto hd (by intros; simp)
  | upWriteIdx old =>
    have hd : s.pc.delta = [] := by rw [hpc]; rfl
    dsimp only
    split
    · exact Bal.goto (h.writeIndex _) hd (by intros; simp)
    · exact Bal.goto (h.writeIndex _) (by rw [writeIndex_pc]; exact hd) (by intros; simp)
  | upRead old =>
    have hd : s.pc.delta = [] := by rw [hpc]; rfl
    dsimp only
    split
    · exact h.goto hd (by intros; simp)
    · split
      · split
        · exact Bal.goto (h.idx s.fm s.idx _ s.dIndex s.fresh _ s.stat s.dyn s.handles) hd (by intros; simp)
        · exact h.goto hd (by intros; simp)
      · exact h.goto hd (by intros; simp)
  | upDel old =>
    have hd : s.pc.delta = [] := by rw [hpc]; rfl
    dsimp only
    split
    · exact h.goto hd (by intros; simp)
    · rename_i f rest _
      split
      · exact (h.delLose f.name .unreadable rest (by intros; simp [hpc])).goto hd (by intros; simp)
      · exact h.goto hd (by intros; simp)
  | upDelIdx old =>
    have hd : s.pc.delta = [] := by rw [hpc]; rfl
    dsimp only
    split
    · exact Bal.goto (h.writeIndex _) hd (by intros; simp)
    · exact Bal.goto (h.writeIndex _) (by rw [writeIndex_pc]; exact hd) (by intros; simp)
  | complete u =>
    have hd : s.pc.delta = [] := by rw [hpc]; rfl
    dsimp only
    split
    · exact h.goto hd (by intros; simp)
    · split <;> exact h.goto hd (by intros; simp)
  | compDel u =>
    have hd : s.pc.delta = [] := by rw [hpc]; rfl
    dsimp only
    split
    · exact h.goto hd (by intros; simp)
    · rename_i f rest _
      split
      · refine ⟨nodup_del h.nodup, by intros; simp_all [St.goto], ?_⟩
        intro id x
        have h1 := h.bal id x
        have h2 := cnt_del (n := f.name) h.nodup id x
        simp only [St.accounted, hd] at h1
        simp only [St.accounted, St.goto, flatten_ack, cnt_append, Pc.delta] at h1 ⊢
        omega
      · exact h.goto hd (by intros; simp)
  | compIdx u =>
    exact Bal.goto (h.writeIndex _) (by rw [writeIndex_pc, hpc]; rfl) (by intros; simp)

theorem Bal.get {s : St} (h : Bal s) (k : Bool) (id : Id) (kind : Kind) (limit : Option Nat) :
    Bal (s.get k id kind limit).1 := by
  have key : Bal { s with cells := s.cells ++ [(id, Metric.new kind)], handles := s.cells.length :: s.handles } := by
    refine ⟨h.nodup, h.write, ?_⟩
    intro i a
    have := h.bal i a
    have h2 := Metric.count_new kind a
    simp only [St.accounted, cnt_append, cnt, h2, ite_self] at this ⊢
    omega
  unfold St.get
  split
  · split
    · split
      · split
        · exact h.idx s.fm s.idx s.inflight s.dIndex s.fresh s.uploads s.stat s.dyn _
        · exact h
      · exact h
    · split
      · cases k
        · exact key.idx s.fm s.idx s.inflight s.dIndex s.fresh s.uploads _ s.dyn _
        · exact key.idx s.fm s.idx s.inflight s.dIndex s.fresh s.uploads s.stat _ _
      · exact h
  · exact h

theorem Metric.count_record {m m' : Metric} {r : Rec} (h : m.record r = some m') (x : Atom) :
    m'.count x = m.count x + r.metric.count x := by
  cases m <;> cases r <;> simp only [Metric.record, Option.some.injEq, reduceCtorEq] at h
  · subst h; cases x <;> simp [Metric.count, Rec.metric]
  · subst h
    cases x with
    | none => rfl
    | some v => simp only [Metric.count, Rec.metric, Hist.accept_values, List.count_append]; rfl

theorem Bal.record {s : St} (h : Bal s) (c : Nat) (r : Rec) : Bal (s.record c r) := by
  unfold St.record
  split
  · split
    · rename_i e he
      split
      · rename_i m hm
        refine ⟨h.nodup, h.write, ?_⟩
        intro i a
        have h1 := h.bal i a
        have h2 := cnt_set he m i a
        have h3 := Metric.count_record hm a
        simp only [St.accounted, cnt] at h1 h2 ⊢
        by_cases hi : e.1 = i
        · simp only [if_pos hi] at h2 ⊢; omega
        · simp only [if_neg hi] at h2 ⊢; omega
      · exact h
    · exact h
  · exact h

theorem Bal.tear {s : St} (h : Bal s) :
    ((s.tear).files.map Prod.fst).Nodup ∧ s.tear.cells = s.cells ∧ s.tear.issued = s.issued ∧ s.tear.acked = s.acked ∧
    ∀ id x, cnt id x (allFiles s.tear.files) + cnt id x (s.tear.dropped.map Prod.snd).flatten =
      cnt id x (allFiles s.files) + cnt id x (s.dropped.map Prod.snd).flatten := by
  unfold St.tear
  split
  any_goals exact ⟨h.nodup, rfl, rfl, rfl, fun _ _ => rfl⟩
  rename_i n _ _ _ _ _
  refine ⟨nodup_put h.nodup, rfl, rfl, rfl, ?_⟩
  intro id x
  have := cnt_put (n := n) (f := none) h.nodup id x
  simp only [St.lose, flatten_lose, cnt_append, fileContent, cnt] at this ⊢
  omega

theorem Bal.crash {s : St} (h : Bal s) (b : Bool) : Bal (s.crash b) := by
  have key : ∀ t : St, (t.files.map Prod.fst).Nodup → t.issued = s.issued → t.acked = s.acked →
      (∀ id x, cnt id x (allFiles t.files) + cnt id x (t.dropped.map Prod.snd).flatten =
        cnt id x (allFiles s.files) + cnt id x (s.dropped.map Prod.snd).flatten) →
      Bal { t.lose .crash (s.cells ++ s.pc.delta) with
        cells := [], stat := [], dyn := [], handles := [], fm := .uninit, idx := [], pc := .idle, inflight := none } := by
    intro t h1 h2 h3 h4
    refine ⟨h1, by intros; simp_all, ?_⟩
    intro id x
    have := h4 id x
    have h6 := h.bal id x
    simp only [St.accounted, St.lose, flatten_lose, cnt_append, cnt, h2, h3] at h6 ⊢
    rw [h6, show Pc.delta .idle = [] from rfl]
    simp only [cnt]; omega
  unfold St.crash
  cases b with
  | false => exact key s h.nodup rfl rfl (fun _ _ => rfl)
  | true => have := h.tear; exact key s.tear this.1 this.2.2.1 this.2.2.2.1 this.2.2.2.2

theorem Bal.apply {s : St} (h : Bal s) (hn : Names s) (op : Op) : Bal (s.apply op) := by
  cases op with
  | get k id kind limit => exact h.get k id kind limit
  | record c r => exact h.record c r
  | release c => exact h.idx s.fm s.idx s.inflight s.dIndex s.fresh s.uploads s.stat s.dyn _
  | flush =>
    unfold St.apply; dsimp only; split
    · rename_i hp; exact h.goto (by rw [hp]; rfl) (by intros; simp)
    · exact h
  | upload =>
    unfold St.apply; dsimp only; split
    · rename_i hp; exact h.goto (by rw [hp.1]; rfl) (by intros; simp)
    · exact h
  | response b =>
    unfold St.apply; dsimp only; split
    · rename_i hp
      have h' := h.idx s.fm s.idx none s.dIndex s.fresh s.uploads s.stat s.dyn s.handles
      split
      · split
        · exact h'.goto (by show s.pc.delta = _; rw [hp]; rfl) (by intros; simp)
        · exact h'
      · exact h
    · exact h
  | shutdown =>
    unfold St.apply; dsimp only; split
    · rename_i hp; exact h.goto (by rw [hp]; rfl) (by intros; simp)
    · exact h
  | task e => exact h.step hn e
  | crash b => exact h.crash b
  | damageIndex b =>
    unfold St.apply; dsimp only; split
    · exact h.idx s.fm s.idx s.inflight _ s.fresh s.uploads s.stat s.dyn s.handles
    · exact h
  | damageFile n b =>
    unfold St.apply; dsimp only; split
    · rename_i hp
      cases b with
      | false => exact h.delLose n .damage s.idx (by intros; simp [hp])
      | true =>
        refine ⟨nodup_put h.nodup, by intros; simp_all [St.lose], ?_⟩
        intro id x
        have h1 := h.bal id x
        have h2 := cnt_put (n := n) (f := none) h.nodup id x
        simp only [St.accounted, St.lose, flatten_lose, cnt_append, fileContent, cnt, if_true] at h1 h2 ⊢
        omega
    · exact h

theorem run_inv (ops : List Op) : Names (St.init.run ops) ∧ Bal (St.init.run ops) := by
  have : ∀ (ops : List Op) (s : St), Names s ∧ Bal s → Names (s.run ops) ∧ Bal (s.run ops) := by
    intro ops
    induction ops with
    | nil => intro s h; exact h
    | cons op ops ih => intro s h; exact ih _ ⟨h.1.apply op, h.2.apply h.1 op⟩
  exact this ops _ ⟨Names.init, Bal.init⟩

end Verif.Stats
