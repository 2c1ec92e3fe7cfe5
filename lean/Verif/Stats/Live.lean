import Verif.Stats.Balance

/-! The index of aggregation files: its length, and that the flusher task does not panic. -/
namespace Verif.Stats

/-- A condition on every operation of a history, in the state it meets. -/
def Along (P : St → Op → Prop) : St → List Op → Prop
  | _, [] => True
  | s, op :: ops => P s op ∧ Along P (s.apply op) ops

theorem Along.inv {P : St → Op → Prop} {I : St → Prop} (hI : ∀ s op, I s → P s op → I (s.apply op)) :
    ∀ (ops : List Op) (s : St), I s → Along P s ops → I (s.run ops) := by
  intro ops
  induction ops with
  | nil => intro s h _; exact h
  | cons op ops ih => intro s h ha; exact ih _ (hI s op h ha.1) ha.2

theorem Along.mono {P Q : St → Op → Prop} (h : ∀ s op, P s op → Q s op) :
    ∀ (ops : List Op) (s : St), Along P s ops → Along Q s ops := by
  intro ops
  induction ops with
  | nil => intros; trivial
  | cons op ops ih => intro s ha; exact ⟨h _ _ ha.1, ih _ ha.2⟩

theorem Along.and {P Q : St → Op → Prop} :
    ∀ (ops : List Op) (s : St), Along P s ops → Along Q s ops → Along (fun s op => P s op ∧ Q s op) s ops := by
  intro ops
  induction ops with
  | nil => intros; trivial
  | cons op ops ih => intro s ha hb; exact ⟨⟨ha.1, hb.1⟩, ih _ ha.2 hb.2⟩

/-! ### The length of the index -/

/-- The index in memory and the index on disk have at most `M` entries. -/
structure Short (M : Nat) (s : St) : Prop where
  mem : s.idx.length ≤ M
  disk : ∀ l, s.dIndex = .good l → l.length ≤ M

theorem closeLast_length (e : Env) (l : List PFile) : (closeLast e l).length = l.length := by
  unfold closeLast
  split
  · rfl
  · rename_i f h
    split
    · have : l ≠ [] := by intro e; subst e; cases h
      have := List.length_pos_iff.2 this
      simp; omega
    · rfl

theorem Short.of {M : Nat} {s t : St} (h : Short M s) (h1 : t.idx.length ≤ s.idx.length) (h2 : t.dIndex = s.dIndex) : Short M t :=
  ⟨Nat.le_trans h1 h.mem, by rw [h2]; exact h.disk⟩

theorem Short.writeIndex {M : Nat} {s : St} (h : Short M s) (o : Out) : Short M (s.writeIndex o) := by
  cases o
  · exact ⟨h.mem, by intro l e; cases e; exact h.mem⟩
  · exact h
  · exact ⟨h.mem, (by intro l e; cases e)⟩

theorem Short.fail {M : Nat} {s : St} (h : Short M s) (c : Cont) : Short M (s.fail c) := by
  cases c <;> exact h.of (Nat.le_refl _) rfl

theorem Short.enter {M : Nat} {s : St} (h : Short M s) (c : Cont) : Short M (s.enter c) := by
  cases c <;> exact h.of (Nat.le_refl _) rfl

theorem Short.merge {M : Nat} {s : St} (h : Short M s) (f u ro old d) : Short M (s.merge f u ro old d) := by
  unfold St.merge
  split
  · exact h.of (by simp [St.goto]) rfl
  · exact h.of (Nat.le_refl _) rfl

theorem Short.start {M : Nat} {s : St} (h : Short M s) (c : Cont) : Short M (s.start c) := by
  unfold St.start
  split
  · exact h.enter c
  · exact h.of (Nat.le_refl _) rfl
  · exact h.of (Nat.le_refl _) rfl

theorem Short.step {M : Nat} {s : St} (h : Short M s) (e : Env) (he : e.max ≤ M) : Short M (s.step e) := by
  unfold St.step
  generalize hpc : s.pc = pc
  unfold St.stepAt
  cases pc with
  | snap k todo d =>
    cases todo with
    | nil => dsimp only; split <;> exact h.of (Nat.le_refl _) rfl
    | cons y t => dsimp only; split <;> (try split) <;> exact h.of (Nat.le_refl _) rfl
  | check k i c t d => dsimp only; split <;> (try split) <;> cases k <;> exact h.of (Nat.le_refl _) rfl
  | idle => exact h
  | dead => exact h
  | stopped => exact h
  | start c => exact h.start c
  | initRead c =>
    dsimp only; split
    · rename_i l _ hl
      refine Short.enter ?_ c
      exact ⟨h.disk l hl, h.disk⟩
    · exact h.of (Nat.le_refl _) rfl
  | initRm c =>
    dsimp only; split
    · exact ⟨h.mem, (by intro l e; cases e)⟩
    · exact h.fail c
  | initMk c =>
    dsimp only; split
    · refine Short.enter ?_ c
      exact ⟨Nat.zero_le _, h.disk⟩
    · exact h.fail c
  | decide d =>
    dsimp only; split
    · split
      · exact h.of (by simp [St.goto, closeLast_length]) rfl
      · rename_i hm
        refine ⟨?_, h.disk⟩
        simp [St.goto, St.push, closeLast_length]; omega
    · exact h.of (Nat.le_refl _) rfl
  | delOldest d =>
    dsimp only; split
    · exact h.of (Nat.le_refl _) rfl
    · rename_i f rest hi
      split
      · exact h.of (by simp [St.goto, St.push, St.lose, hi]) rfl
      · exact h.fail _
  | writeIdx d =>
    dsimp only; split
    · split
      · exact (h.writeIndex _).merge _ _ _ _ _
      · exact h.fail _
    · exact (h.writeIndex _).fail _
  | readBack d =>
    dsimp only; split
    · exact h.of (Nat.le_refl _) rfl
    · split <;> exact h.merge _ _ _ _ _
  | writeSnap n u ro old d =>
    dsimp only; split
    · exact h.of (Nat.le_refl _) rfl
    · exact h.fail _
    · refine Short.fail ?_ _
      exact h.of (Nat.le_refl _) rfl
  | writeIdxEmpty => exact (h.writeIndex _).of (Nat.le_refl _) rfl
  | upHead o =>
    dsimp only; split
    · exact h.of (Nat.le_refl _) rfl
    · rename_i f rest hi
      split
      · exact h.of (Nat.le_refl _) rfl
      · split
        · exact h.of (by simp [St.goto, hi]) rfl
        · exact h.of (Nat.le_refl _) rfl
  | upWriteIdx o =>
    dsimp only; split <;> exact (h.writeIndex _).of (Nat.le_refl _) rfl
  | upRead o => dsimp only; split <;> (try split) <;> (try split) <;> exact h.of (Nat.le_refl _) rfl
  | upDel o =>
    dsimp only; split
    · exact h.of (Nat.le_refl _) rfl
    · rename_i f rest hi
      split
      · exact h.of (by simp [St.goto, St.lose, hi]) rfl
      · exact h.of (Nat.le_refl _) rfl
  | upDelIdx o =>
    dsimp only; split <;> exact (h.writeIndex _).of (Nat.le_refl _) rfl
  | complete u => dsimp only; split <;> (try split) <;> exact h.of (Nat.le_refl _) rfl
  | compDel u =>
    dsimp only; split
    · exact h.of (Nat.le_refl _) rfl
    · rename_i f rest hi
      split
      · exact h.of (by simp [St.goto, hi]) rfl
      · exact h.of (Nat.le_refl _) rfl
  | compIdx u => exact (h.writeIndex _).of (Nat.le_refl _) rfl

theorem Short.crash {M : Nat} {s : St} (h : Short M s) (b : Bool) : Short M (s.crash b) := by
  refine ⟨Nat.zero_le _, ?_⟩
  intro l hl
  have : s.tear.dIndex = .unreadable ∨ s.tear.dIndex = s.dIndex := by
    unfold St.tear; split <;> simp [St.lose]
  cases b with
  | false => exact h.disk l hl
  | true =>
    have hl' : s.tear.dIndex = .good l := hl
    rcases this with e | e
    · rw [e] at hl'; cases hl'
    · rw [e] at hl'; exact h.disk l hl'

/-- What no operation but the task's touches. -/
theorem St.get_idx (s : St) (k id kind limit) :
    (s.get k id kind limit).1.idx = s.idx ∧ (s.get k id kind limit).1.dIndex = s.dIndex ∧
    (s.get k id kind limit).1.fm = s.fm ∧ (s.get k id kind limit).1.pc = s.pc ∧
    (s.get k id kind limit).1.inflight = s.inflight ∧ (s.get k id kind limit).1.dropped = s.dropped ∧
    (s.get k id kind limit).1.files = s.files ∧ (s.get k id kind limit).1.uploads = s.uploads ∧
    (s.get k id kind limit).1.fresh = s.fresh ∧ (s.get k id kind limit).1.acked = s.acked := by
  unfold St.get
  split
  · split
    · split
      · split <;> exact ⟨rfl, rfl, rfl, rfl, rfl, rfl, rfl, rfl, rfl, rfl⟩
      · exact ⟨rfl, rfl, rfl, rfl, rfl, rfl, rfl, rfl, rfl, rfl⟩
    · split
      · cases k <;> exact ⟨rfl, rfl, rfl, rfl, rfl, rfl, rfl, rfl, rfl, rfl⟩
      · exact ⟨rfl, rfl, rfl, rfl, rfl, rfl, rfl, rfl, rfl, rfl⟩
  · exact ⟨rfl, rfl, rfl, rfl, rfl, rfl, rfl, rfl, rfl, rfl⟩

theorem St.record_idx (s : St) (c r) :
    (s.record c r).idx = s.idx ∧ (s.record c r).dIndex = s.dIndex ∧ (s.record c r).fm = s.fm ∧
    (s.record c r).pc = s.pc ∧ (s.record c r).inflight = s.inflight ∧ (s.record c r).dropped = s.dropped ∧
    (s.record c r).files = s.files ∧ (s.record c r).uploads = s.uploads ∧ (s.record c r).fresh = s.fresh ∧
    (s.record c r).acked = s.acked ∧ (s.record c r).handles = s.handles := by
  unfold St.record
  split
  · split
    · split <;> exact ⟨rfl, rfl, rfl, rfl, rfl, rfl, rfl, rfl, rfl, rfl, rfl⟩
    · exact ⟨rfl, rfl, rfl, rfl, rfl, rfl, rfl, rfl, rfl, rfl, rfl⟩
  · exact ⟨rfl, rfl, rfl, rfl, rfl, rfl, rfl, rfl, rfl, rfl, rfl⟩

/-- The limit on files is at most `M` whenever the task looks at it. -/
def maxAtMost (M : Nat) (_ : St) : Op → Prop
  | .task e => e.max ≤ M
  | _ => True

theorem Short.apply {M : Nat} {s : St} (h : Short M s) (op : Op) (ho : maxAtMost M s op) : Short M (s.apply op) := by
  cases op with
  | get k id kind limit =>
    have := s.get_idx k id kind limit
    exact h.of (Nat.le_of_eq (congrArg List.length this.1)) this.2.1
  | record c r =>
    have := s.record_idx c r
    exact h.of (Nat.le_of_eq (congrArg List.length this.1)) this.2.1
  | release c => exact h.of (Nat.le_refl _) rfl
  | flush => unfold St.apply; dsimp only; split; exact h.of (Nat.le_refl _) rfl; exact h
  | upload => unfold St.apply; dsimp only; split; exact h.of (Nat.le_refl _) rfl; exact h
  | response b =>
    unfold St.apply; dsimp only; split
    · split
      · split <;> exact h.of (Nat.le_refl _) rfl
      · exact h
    · exact h
  | shutdown => unfold St.apply; dsimp only; split; exact h.of (Nat.le_refl _) rfl; exact h
  | task e => exact h.step e ho
  | crash b => exact h.crash b
  | damageIndex b =>
    unfold St.apply; dsimp only; split
    · refine ⟨h.mem, ?_⟩
      intro l e; cases b <;> cases e
    · exact h
  | damageFile n b => unfold St.apply; dsimp only; split; exact h.of (Nat.le_refl _) rfl; exact h

/-! ### No panic -/

/-- All files but the last one are closed. -/
def Closed (l : List PFile) : Prop := ∀ f ∈ l.dropLast, f.stop.isSome

/-- An upload under way does not lose the last entry of the index: there is one, and if the last one is still open there
is another one. -/
def Keeps (l : List PFile) : Prop := l ≠ [] ∧ ∀ f, l.getLast? = some f → f.stop = none → 2 ≤ l.length

/-- What the task needs where it is. -/
def Need (fm : FmState) (idx : List PFile) (inflight : Option Nat) : Pc → Prop
  | .idle | .stopped | .snap _ _ _ | .check _ _ _ _ _ | .start (.flush _) | .writeIdxEmpty =>
      fm ≠ .taken ∧ (inflight ≠ none → fm = .ready ∧ Keeps idx)
  | .decide _ => fm = .ready ∧ (inflight ≠ none → Keeps idx)
  | .readBack _ | .writeSnap _ _ _ _ _ | .writeIdx _ => fm = .ready ∧ idx ≠ [] ∧ (inflight ≠ none → 2 ≤ idx.length)
  | .delOldest _ => fm = .ready ∧ 2 ≤ idx.length ∧ ∀ f ∈ idx, f.stop.isSome
  | .start (.upload _) => fm ≠ .taken ∧ inflight = none
  | .start (.complete _) => fm = .ready ∧ idx ≠ [] ∧ inflight = none
  | .initRead c | .initRm c | .initMk c => inflight = none ∧ ∀ u, c ≠ .complete u
  | .upHead _ | .upDelIdx _ | .compIdx _ => fm = .ready ∧ inflight = none
  | .upWriteIdx _ | .upRead _ => fm = .ready ∧ idx ≠ [] ∧ inflight = none ∧ ∀ f, idx.head? = some f → f.stop.isSome
  | .upDel _ | .complete _ | .compDel _ => fm = .ready ∧ idx ≠ [] ∧ inflight = none
  | .dead => False

structure Live (s : St) : Prop where
  mem : Closed s.idx
  disk : ∀ l, s.dIndex = .good l → Closed l
  need : Need s.fm s.idx s.inflight s.pc

theorem Live.init : Live St.init :=
  ⟨(by intro f hf; cases hf), (by intro l e; cases e), by simp [Need, St.init]⟩

/-- The flusher is allowed at least two files, and initialization can remove and create the directory. -/
def calm (s : St) : Op → Prop
  | .task e => 2 ≤ e.max ∧ (match s.pc with | .initRm _ | .initMk _ => e.out = .ok | _ => True)
  | _ => True

theorem Closed.nil : Closed [] := by intro f hf; cases hf

theorem Closed.dropLast {l : List PFile} (h : Closed l) : Closed l.dropLast :=
  fun f hf => h f ((List.dropLast_sublist _).subset hf)

theorem Closed.tail {f : PFile} {l : List PFile} (h : Closed (f :: l)) : Closed l := by
  intro g hg
  cases l with
  | nil => cases hg
  | cons a l => exact h g (List.mem_cons_of_mem _ hg)

theorem Closed.push {l : List PFile} (h : ∀ f ∈ l, f.stop.isSome) (f : PFile) : Closed (l ++ [f]) := by
  intro g hg
  rw [List.dropLast_concat] at hg
  exact h g hg

theorem Closed.all {l : List PFile} (h : Closed l) {f : PFile} (hl : l.getLast? = some f) (hf : f.stop.isSome) :
    ∀ g ∈ l, g.stop.isSome := by
  intro g hg
  have : l ≠ [] := by intro e; subst e; cases hl
  rw [List.getLast?_eq_some_getLast this] at hl
  rw [← List.dropLast_concat_getLast this] at hg
  rcases List.mem_append.1 hg with hg | hg
  · exact h g hg
  · rw [List.mem_singleton] at hg; rw [hg, Option.some.inj hl]; exact hf

theorem Keeps.of_two {l : List PFile} (h : 2 ≤ l.length) : Keeps l :=
  ⟨by intro e; subst e; simp at h, fun _ _ _ => h⟩

theorem Keeps.dropLast {l : List PFile} (hc : Closed l) (h : 2 ≤ l.length) : Keeps l.dropLast := by
  have hne : l.dropLast ≠ [] := by
    intro e; have := congrArg List.length e; simp at this; omega
  refine ⟨hne, ?_⟩
  intro f hf hs
  have hm : f ∈ l.dropLast := List.mem_of_getLast? hf
  have := hc f hm
  rw [hs] at this; cases this

theorem closeLast_closed {e : Env} {l : List PFile} (hm : mustCreate e l = true) (h : Closed l) :
    ∀ f ∈ closeLast e l, f.stop.isSome := by
  unfold mustCreate at hm
  unfold closeLast
  cases hl : l.getLast? with
  | none => intro f hf; rw [List.getLast?_eq_none_iff] at hl; subst hl; cases hf
  | some g =>
    rw [hl] at hm
    dsimp only at hm ⊢
    split
    · intro f hf
      rcases List.mem_append.1 hf with hf | hf
      · exact h f hf
      · rw [List.mem_singleton] at hf; subst hf; rfl
    · rename_i hn
      apply h.all hl
      cases hg : g.stop with
      | some x => rfl
      | none => rw [hg] at hm hn; simp at hm hn; omega

theorem Live.fail {s : St} (h : Closed s.idx) (hd : ∀ l, s.dIndex = .good l → Closed l) (c : Cont) (hf : s.fm = .ready)
    (hc : ∀ u, c = .complete u → s.inflight = none) (hk : s.inflight ≠ none → Keeps s.idx) :
    Live (s.fail c) := by
  cases c with
  | flush d => exact ⟨h, hd, by show s.fm ≠ .taken; rw [hf]; simp, fun hi => ⟨hf, hk hi⟩⟩
  | upload o => exact ⟨h, hd, by show s.fm ≠ .taken; rw [hf]; simp, fun hi => ⟨hf, hk hi⟩⟩
  | complete u => exact ⟨h, hd, by show s.fm ≠ .taken; rw [hf]; simp, hc u rfl⟩

theorem writeIndex_rest (s : St) (o : Out) :
    (s.writeIndex o).fm = s.fm ∧ (s.writeIndex o).idx = s.idx ∧ (s.writeIndex o).inflight = s.inflight := by
  cases o <;> exact ⟨rfl, rfl, rfl⟩

theorem closed_writeIndex {s : St} (h : Closed s.idx) (hd : ∀ l, s.dIndex = .good l → Closed l) (o : Out) :
    ∀ l, (s.writeIndex o).dIndex = .good l → Closed l := by
  cases o
  · intro l e; cases e; exact h
  · exact hd
  · intro l e; cases e

theorem Live.merge {s : St} (h : Closed s.idx) (hd : ∀ l, s.dIndex = .good l → Closed l) (hf : s.fm = .ready)
    (hne : s.idx ≠ []) (hk : s.inflight ≠ none → 2 ≤ s.idx.length) (f u ro old d) : Live (s.merge f u ro old d) := by
  unfold St.merge
  split
  · refine ⟨h.dropLast, hd, ?_⟩
    show s.fm ≠ .taken ∧ (s.inflight ≠ none → s.fm = .ready ∧ Keeps s.idx.dropLast)
    rw [hf]
    exact ⟨by simp, fun hi => ⟨rfl, Keeps.dropLast h (hk hi)⟩⟩
  · exact ⟨h, hd, hf, hne, hk⟩

theorem Live.enter {s : St} (h : Closed s.idx) (hd : ∀ l, s.dIndex = .good l → Closed l) (c : Cont) (hf : s.fm = .ready)
    (hi : s.inflight ≠ none → Keeps s.idx) (hu : ∀ o, c = .upload o → s.inflight = none)
    (hc : ∀ u, c = .complete u → s.inflight = none ∧ s.idx ≠ []) :
    Live (s.enter c) := by
  cases c with
  | flush d => exact ⟨h, hd, hf, hi⟩
  | upload o => exact ⟨h, hd, hf, hu o rfl⟩
  | complete u => exact ⟨h, hd, hf, (hc u rfl).2, (hc u rfl).1⟩

theorem Live.step {s : St} (h : Live s) (e : Env) (he : calm s (.task e)) : Live (s.step e) := by
  have hmem := h.mem
  have hdisk := h.disk
  have hn := h.need
  have h2 : 2 ≤ e.max := he.1
  have h3 := he.2
  unfold St.step
  generalize hpc : s.pc = pc at hn h3 ⊢
  unfold St.stepAt
  cases pc with
  | idle => exact h
  | dead => exact h
  | stopped => exact h
  | snap k todo d =>
    cases todo with
    | nil => dsimp only; split <;> exact ⟨hmem, hdisk, hn⟩
    | cons y t => dsimp only; split <;> (try split) <;> exact ⟨hmem, hdisk, hn⟩
  | check k i c t d => dsimp only; split <;> (try split) <;> cases k <;> exact ⟨hmem, hdisk, hn⟩
  | start c =>
    dsimp only
    unfold St.start
    split
    · rename_i hf
      cases c with
      | flush d => exact Live.enter hmem hdisk _ hf (fun hi => (hn.2 hi).2) (by simp) (by simp)
      | upload o =>
        have hi : s.inflight = none := hn.2
        exact Live.enter hmem hdisk _ hf (fun x => absurd hi x) (fun _ _ => hi) (by simp)
      | complete u =>
        have hi : s.inflight = none := hn.2.2
        exact Live.enter hmem hdisk _ hf (fun x => absurd hi x) (by simp) (fun _ _ => ⟨hi, hn.2.1⟩)
    · rename_i hf
      cases c with
      | flush d =>
        refine ⟨hmem, hdisk, ?_, by simp⟩
        show s.inflight = none
        cases hi : s.inflight with
        | none => rfl
        | some x => have := (hn.2 (by simp [hi])).1; rw [hf] at this; cases this
      | upload o => exact ⟨hmem, hdisk, hn.2, by simp⟩
      | complete u => have := hn.1; rw [hf] at this; cases this
    · rename_i hf
      cases c with
      | flush d => exact absurd hf hn.1
      | upload o => exact absurd hf hn.1
      | complete u => have := hn.1; rw [hf] at this; cases this
  | initRead c =>
    have hi : s.inflight = none := hn.1
    dsimp only; split
    · rename_i l _ hl
      refine Live.enter ?_ ?_ c ?_ ?_ (fun _ _ => hi) (fun u e => absurd e (hn.2 u))
      · exact hdisk l hl
      · exact hdisk
      · rfl
      · exact fun x => absurd hi x
    · exact ⟨hmem, hdisk, hn⟩
  | initRm c =>
    dsimp only; split
    · exact ⟨hmem, (by intro l e; cases e), hn⟩
    · rename_i ho; exact absurd h3 ho
  | initMk c =>
    have hi : s.inflight = none := hn.1
    dsimp only; split
    · refine Live.enter ?_ ?_ c ?_ ?_ (fun _ _ => hi) (fun u e => absurd e (hn.2 u))
      · exact Closed.nil
      · exact hdisk
      · rfl
      · exact fun x => absurd hi x
    · rename_i ho; exact absurd h3 ho
  | decide d =>
    have hf : s.fm = .ready := hn.1
    dsimp only; split
    · rename_i hm
      have hall := closeLast_closed hm hmem
      split
      · rename_i hl
        refine ⟨fun f hf => hall f ((List.dropLast_sublist _).subset hf), hdisk, hf, ?_, hall⟩
        show 2 ≤ (closeLast e s.idx).length
        rw [closeLast_length]; omega
      · refine ⟨Closed.push hall _, hdisk, hf, by simp [St.goto, St.push], ?_⟩
        intro hi
        have := List.length_pos_iff.2 (hn.2 hi).1
        show 2 ≤ (closeLast e s.idx ++ [_]).length
        simp [closeLast_length]; omega
    · rename_i hm
      refine ⟨hmem, hdisk, hf, ?_, ?_⟩
      · intro ei; apply hm
        show mustCreate e s.idx = true
        rw [show s.idx = [] from ei]; rfl
      · intro hi
        have hk := hn.2 hi
        have hne := hk.1
        refine hk.2 _ (List.getLast?_eq_some_getLast hne) ?_
        have : mustCreate e s.idx = false := by simpa using hm
        unfold mustCreate at this
        rw [List.getLast?_eq_some_getLast hne] at this
        dsimp only at this
        rw [Bool.or_eq_false_iff] at this
        simpa using this.1
  | delOldest d =>
    obtain ⟨hf, hlen, hall⟩ := hn
    dsimp only; split
    · rename_i hi; rw [hi] at hlen; simp at hlen
    · rename_i f rest hi
      rw [hi] at hlen hall
      split
      · refine ⟨Closed.push (fun g hg => hall g (List.mem_cons_of_mem _ hg)) _, hdisk, hf, by simp [St.goto, St.push], ?_⟩
        intro _
        show 2 ≤ (rest ++ [_]).length
        simp at hlen ⊢; omega
      · exact Live.fail hmem hdisk _ hf (by simp) (fun _ => Keeps.of_two (by rw [hi]; exact hlen))
  | writeIdx d =>
    obtain ⟨hf, hne, hk⟩ := hn
    dsimp only; split
    · split
      · exact Live.merge (s := s.writeIndex .ok) hmem (closed_writeIndex hmem hdisk .ok) hf hne hk _ _ _ _ _
      · exact Live.fail hmem hdisk _ hf (by simp) (fun x => Keeps.of_two (hk x))
    · have := writeIndex_rest s e.out
      exact Live.fail (by rw [this.2.1]; exact hmem) (closed_writeIndex hmem hdisk _) _ (by rw [this.1]; exact hf) (by simp)
        (by rw [this.2.1, this.2.2]; exact fun x => Keeps.of_two (hk x))
  | readBack d =>
    obtain ⟨hf, hne, hk⟩ := hn
    dsimp only; split
    · rename_i hl; rw [List.getLast?_eq_none_iff] at hl; exact absurd hl hne
    · split <;> exact Live.merge hmem hdisk hf hne hk _ _ _ _ _
  | writeSnap n u ro old d =>
    obtain ⟨hf, hne, hk⟩ := hn
    dsimp only; split
    · refine ⟨hmem, hdisk, ?_⟩
      show s.fm ≠ .taken ∧ (s.inflight ≠ none → s.fm = .ready ∧ Keeps s.idx)
      rw [hf]; exact ⟨by simp, fun x => ⟨rfl, Keeps.of_two (hk x)⟩⟩
    · exact Live.fail hmem hdisk _ hf (by simp) (fun x => Keeps.of_two (hk x))
    · refine Live.fail ?_ ?_ _ ?_ (by simp) ?_
      · exact hmem
      · exact hdisk
      · exact hf
      · exact fun x => Keeps.of_two (hk x)
  | writeIdxEmpty =>
    have := writeIndex_rest s e.out
    refine ⟨by rw [show ((s.writeIndex e.out).goto .idle).idx = s.idx from this.2.1]; exact hmem,
      closed_writeIndex hmem hdisk _, ?_⟩
    show Need (s.writeIndex e.out).fm (s.writeIndex e.out).idx (s.writeIndex e.out).inflight .idle
    rw [this.1, this.2.1, this.2.2]; exact hn
  | upHead o =>
    obtain ⟨hf, hi⟩ := hn
    have hi : s.inflight = none := hi
    have hidle : Need s.fm s.idx s.inflight .idle := ⟨by rw [hf]; simp, fun x => absurd hi x⟩
    dsimp only; split
    · exact ⟨hmem, hdisk, hidle⟩
    · rename_i f rest hx
      split
      · exact ⟨hmem, hdisk, hidle⟩
      · split
        · refine ⟨?_, hdisk, hf, by simp [St.goto], hi, ?_⟩
          · show Closed ({ f with stop := some e.now } :: rest)
            rw [hx] at hmem
            intro g hg
            cases rest with
            | nil => cases hg
            | cons a l =>
              rcases List.mem_cons.1 hg with hg | hg
              · rw [hg]; rfl
              · exact hmem g (List.mem_cons_of_mem _ hg)
          · intro g hg
            simp [St.goto] at hg
            rw [← hg]; rfl
        · rename_i hs
          refine ⟨hmem, hdisk, hf, by simp [St.goto, hx], hi, ?_⟩
          intro g hg
          simp [St.goto, hx] at hg
          subst hg
          cases hst : f.stop with
          | none => simp [hst] at hs
          | some x => rfl
  | upWriteIdx o =>
    obtain ⟨hf, hne, hi, hh⟩ := hn
    have hi : s.inflight = none := hi
    dsimp only; split
    · exact ⟨hmem, closed_writeIndex hmem hdisk .ok, hf, hne, hi, hh⟩
    · have := writeIndex_rest s e.out
      refine ⟨by rw [show ((s.writeIndex e.out).goto .idle).idx = s.idx from this.2.1]; exact hmem,
        closed_writeIndex hmem hdisk _, ?_⟩
      show Need (s.writeIndex e.out).fm (s.writeIndex e.out).idx (s.writeIndex e.out).inflight .idle
      rw [this.1, this.2.1, this.2.2]; exact ⟨by rw [hf]; simp, fun x => absurd hi x⟩
  | upRead o =>
    obtain ⟨hf, hne, hi, hh⟩ := hn
    have hi : s.inflight = none := hi
    dsimp only; split
    · rename_i hx; exact absurd hx hne
    · rename_i f rest hx
      split
      · split
        · refine ⟨hmem, hdisk, ?_⟩
          show s.fm ≠ .taken ∧ (_ → s.fm = .ready ∧ Keeps s.idx)
          rw [hf]
          refine ⟨by simp, fun _ => ⟨rfl, hne, ?_⟩⟩
          intro g hg hs
          rw [hx] at hg hh ⊢
          cases rest with
          | nil =>
            simp at hg; subst hg
            have := hh f rfl
            rw [hs] at this; cases this
          | cons a l => simp
        · exact ⟨hmem, hdisk, by show s.fm ≠ .taken; rw [hf]; simp, fun x => absurd hi x⟩
      · exact ⟨hmem, hdisk, hf, hne, hi⟩
  | upDel o =>
    obtain ⟨hf, hne, hi⟩ := hn
    have hi : s.inflight = none := hi
    dsimp only; split
    · rename_i hx; exact absurd hx hne
    · rename_i f rest hx
      rw [hx] at hmem
      split
      · exact ⟨hmem.tail, hdisk, hf, hi⟩
      · exact ⟨by show Closed s.idx; rw [hx]; exact hmem, hdisk, by show s.fm ≠ .taken; rw [hf]; simp, fun x => absurd hi x⟩
  | upDelIdx o =>
    obtain ⟨hf, hi⟩ := hn
    have hi : s.inflight = none := hi
    dsimp only; split
    · exact ⟨hmem, closed_writeIndex hmem hdisk .ok, hf, hi⟩
    · have := writeIndex_rest s e.out
      refine ⟨by rw [show ((s.writeIndex e.out).goto .idle).idx = s.idx from this.2.1]; exact hmem,
        closed_writeIndex hmem hdisk _, ?_⟩
      show Need (s.writeIndex e.out).fm (s.writeIndex e.out).idx (s.writeIndex e.out).inflight .idle
      rw [this.1, this.2.1, this.2.2]; exact ⟨by rw [hf]; simp, fun x => absurd hi x⟩
  | complete u =>
    obtain ⟨hf, hne, hi⟩ := hn
    dsimp only; split
    · rename_i hx; exact absurd hx hne
    · split
      · exact ⟨hmem, hdisk, by show s.fm ≠ .taken; rw [hf]; simp, hi⟩
      · exact ⟨hmem, hdisk, hf, hne, hi⟩
  | compDel u =>
    obtain ⟨hf, hne, hi⟩ := hn
    dsimp only; split
    · rename_i hx; exact absurd hx hne
    · rename_i f rest hx
      rw [hx] at hmem
      split
      · exact ⟨hmem.tail, hdisk, hf, hi⟩
      · exact ⟨by show Closed s.idx; rw [hx]; exact hmem, hdisk, by show s.fm ≠ .taken; rw [hf]; simp, hi⟩
  | compIdx u =>
    obtain ⟨hf, hi⟩ := hn
    have := writeIndex_rest s e.out
    refine ⟨by rw [show ((s.writeIndex e.out).goto (.start (.upload true))).idx = s.idx from this.2.1]; exact hmem,
      closed_writeIndex hmem hdisk _, ?_⟩
    show Need (s.writeIndex e.out).fm (s.writeIndex e.out).idx (s.writeIndex e.out).inflight (.start (.upload true))
    rw [this.1, this.2.1, this.2.2]; exact ⟨by rw [hf]; simp, hi⟩

theorem Live.apply {s : St} (h : Live s) (op : Op) (ho : calm s op) : Live (s.apply op) := by
  cases op with
  | get k id kind limit =>
    have := s.get_idx k id kind limit
    exact ⟨by show Closed (s.get k id kind limit).1.idx; rw [this.1]; exact h.mem,
      by show ∀ l, (s.get k id kind limit).1.dIndex = _ → _; rw [this.2.1]; exact h.disk,
      by show Need (s.get k id kind limit).1.fm (s.get k id kind limit).1.idx (s.get k id kind limit).1.inflight
           (s.get k id kind limit).1.pc
         rw [this.1, this.2.2.1, this.2.2.2.1, this.2.2.2.2.1]; exact h.need⟩
  | record c r =>
    have := s.record_idx c r
    exact ⟨by show Closed (s.record c r).idx; rw [this.1]; exact h.mem,
      by show ∀ l, (s.record c r).dIndex = _ → _; rw [this.2.1]; exact h.disk,
      by show Need (s.record c r).fm (s.record c r).idx (s.record c r).inflight (s.record c r).pc
         rw [this.1, this.2.2.1, this.2.2.2.1, this.2.2.2.2.1]; exact h.need⟩
  | release c => exact ⟨h.mem, h.disk, h.need⟩
  | flush =>
    unfold St.apply; dsimp only; split
    · rename_i hp; exact ⟨h.mem, h.disk, by have := h.need; rw [hp] at this; exact this⟩
    · exact h
  | upload =>
    unfold St.apply; dsimp only; split
    · rename_i hp
      have := h.need; rw [hp.1] at this
      exact ⟨h.mem, h.disk, this.1, hp.2⟩
    · exact h
  | response b =>
    unfold St.apply; dsimp only; split
    · rename_i hp
      have hn := h.need; rw [hp] at hn
      split
      · rename_i u hu
        have hk := hn.2 (by rw [hu]; simp)
        split
        · exact ⟨h.mem, h.disk, hk.1, hk.2.1, rfl⟩
        · refine ⟨h.mem, h.disk, ?_⟩
          show Need s.fm s.idx none s.pc
          rw [hp]
          exact ⟨hn.1, fun x => absurd rfl x⟩
      · exact h
    · exact h
  | shutdown =>
    unfold St.apply; dsimp only; split
    · rename_i hp; exact ⟨h.mem, h.disk, by have := h.need; rw [hp] at this; exact this⟩
    · exact h
  | task e => exact h.step e ho
  | crash b =>
    refine ⟨Closed.nil, ?_, by show FmState.uninit ≠ .taken; simp, fun x => absurd rfl x⟩
    intro l hl
    have : s.tear.dIndex = .unreadable ∨ s.tear.dIndex = s.dIndex := by
      unfold St.tear; split <;> simp [St.lose]
    cases b with
    | false => exact h.disk l hl
    | true =>
      have hl' : s.tear.dIndex = .good l := hl
      rcases this with e | e
      · rw [e] at hl'; cases hl'
      · rw [e] at hl'; exact h.disk l hl'
  | damageIndex b =>
    unfold St.apply; dsimp only; split
    · refine ⟨h.mem, ?_, h.need⟩
      intro l e; cases b <;> cases e
    · exact h
  | damageFile n b =>
    unfold St.apply; dsimp only; split
    · exact ⟨h.mem, h.disk, h.need⟩
    · exact h

end Verif.Stats
