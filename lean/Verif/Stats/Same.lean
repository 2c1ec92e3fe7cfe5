import Verif.Stats.Live

/-! One identifier, one content: the invariant behind C26. -/
namespace Verif.Stats

/-- The entries of a list of files agree with an upload about its period. -/
def Fits (u : Upload) (l : List PFile) : Prop := ∀ f ∈ l, f.name = u.uuid → f.start = u.start ∧ f.stop = u.stop

/-- The names in a list of files are distinct and were taken before. -/
def Good (fresh : Nat) (l : List PFile) : Prop := (l.map PFile.name).Nodup ∧ ∀ f ∈ l, f.name < fresh

/-- What is closed in memory is closed on disk, if it is on disk at all. -/
def Agree (idx : List PFile) (d : IndexFile) : Prop :=
  ∀ l, d = .good l → ∀ g ∈ l, ∀ f ∈ idx, f.name = g.name → f.stop.isSome → g = f

/-- The states of the task in which a file is closed in memory only. -/
def Pc.sealing : Pc → Bool
  | .delOldest _ | .writeIdx _ | .upWriteIdx _ => true
  | _ => false

/-- What the states of the task say about the index. -/
def Tip (idx : List PFile) : Pc → Prop
  | .writeIdx _ | .readBack _ => ∀ f, idx.getLast? = some f → f.stop = none
  | .writeSnap n u _ _ _ => u = n ∧ ∃ f, f ∈ idx ∧ f.name = n ∧ f.stop = none
  | .upWriteIdx _ | .upRead _ => ∀ f, idx.head? = some f → f.stop.isSome
  | _ => True

structure Same (s : St) : Prop where
  used : ∀ u ∈ s.uploads, u.uuid < s.fresh ∧ u.stop.isSome
  file : ∀ u ∈ s.uploads, ∀ f, getFile u.uuid s.files = some (some f) → f.content = u.content
  mem : ∀ u ∈ s.uploads, Fits u s.idx
  disk : ∀ u ∈ s.uploads, ∀ l, s.dIndex = .good l → Fits u l
  goodMem : Good s.fresh s.idx
  goodDisk : ∀ l, s.dIndex = .good l → Good s.fresh l
  uuid : ∀ n f, getFile n s.files = some (some f) → f.uuid = n
  agree : s.pc.sealing = false → Agree s.idx s.dIndex
  tip : Tip s.idx s.pc
  same : ∀ a ∈ s.uploads, ∀ b ∈ s.uploads, a.uuid = b.uuid → a = b

/-- Whenever a file is closed, the index is written or left unreadable: the writes that close a file, and deleting the
oldest file on the way to one, do not fail without effect. -/
def steady (s : St) : Op → Prop
  | .task e => match s.pc with
    | .delOldest _ => e.out = .ok
    | .writeIdx _ | .upWriteIdx _ => e.out ≠ .fail
    | _ => True
  | _ => True

theorem Good.nil (n : Nat) : Good n [] := ⟨by simp, by simp⟩
theorem Good.sub {n : Nat} {a b : List PFile} (h : Good n b) (hs : a.Sublist b) : Good n a :=
  ⟨h.1.sublist (hs.map _), fun f hf => h.2 f (hs.subset hf)⟩
theorem Fits.nil (u : Upload) : Fits u [] := by intro f hf; cases hf
theorem Fits.sub {u : Upload} {a b : List PFile} (h : Fits u b) (hs : a.Sublist b) : Fits u a :=
  fun f hf => h f (hs.subset hf)
theorem Agree.sub {a b : List PFile} {d : IndexFile} (h : Agree b d) (hs : a.Sublist b) : Agree a d :=
  fun l hl g hg f hf => h l hl g hg f (hs.subset hf)
theorem Agree.nil (d : IndexFile) : Agree [] d := by intro l _ g _ f hf; cases hf

theorem Good.inj {n : Nat} {l : List PFile} (h : Good n l) {f g : PFile} (hf : f ∈ l) (hg : g ∈ l) (e : f.name = g.name) : f = g := by
  have h1 := h.1
  clear h
  induction l with
  | nil => cases hf
  | cons a l ih =>
    simp only [List.map_cons, List.nodup_cons, List.mem_map, not_exists, not_and] at h1
    rcases List.mem_cons.1 hf with h' | h' <;> rcases List.mem_cons.1 hg with h'' | h''
    · rw [h', h'']
    · subst h'; exact absurd e.symm (h1.1 g h'')
    · subst h''; exact absurd e (h1.1 f h')
    · exact ih h' h'' h1.2

theorem Agree.self {n : Nat} {l : List PFile} (h : Good n l) : Agree l (.good l) := by
  intro l' hl g hg f hf e _
  cases hl
  exact (h.inj hf hg e).symm

theorem Good.mono {n m : Nat} {l : List PFile} (h : Good n l) (hm : n ≤ m) : Good m l :=
  ⟨h.1, fun f hf => Nat.lt_of_lt_of_le (h.2 f hf) hm⟩

theorem Same.init : Same St.init := by
  refine ⟨?_, ?_, ?_, ?_, Good.nil _, ?_, ?_, fun _ => Agree.nil _, trivial, ?_⟩ <;> simp [St.init, getFile]

/-- Nothing of what the invariant speaks about changes but the place of the task. -/
theorem Same.of {s t : St} (h : Same s) (h1 : t.uploads = s.uploads) (h2 : t.fresh = s.fresh) (h3 : t.files = s.files)
    (h4 : t.idx = s.idx) (h5 : t.dIndex = s.dIndex) (ha : t.pc.sealing = false → Agree t.idx t.dIndex)
    (ht : Tip t.idx t.pc) : Same t := by
  refine ⟨?_, ?_, ?_, ?_, ?_, ?_, ?_, ha, ht, ?_⟩
  · rw [h1, h2]; exact h.used
  · rw [h1, h3]; exact h.file
  · rw [h1, h4]; exact h.mem
  · rw [h1, h5]; exact h.disk
  · rw [h2, h4]; exact h.goodMem
  · rw [h2, h5]; exact h.goodDisk
  · rw [h3]; exact h.uuid
  · rw [h1]; exact h.same

/-- The index gets shorter. -/
theorem Same.shrink {s t : St} (h : Same s) (h1 : t.uploads = s.uploads) (h2 : t.fresh = s.fresh)
    (h3 : ∀ n f, getFile n t.files = some (some f) → getFile n s.files = some (some f))
    (h4 : t.idx.Sublist s.idx) (h5 : t.dIndex = s.dIndex) (ha : t.pc.sealing = false → Agree t.idx t.dIndex)
    (ht : Tip t.idx t.pc) : Same t := by
  refine ⟨?_, ?_, ?_, ?_, ?_, ?_, ?_, ha, ht, ?_⟩
  · rw [h1, h2]; exact h.used
  · rw [h1]; exact fun u hu f hf => h.file u hu f (h3 _ _ hf)
  · rw [h1]; exact fun u hu => (h.mem u hu).sub h4
  · rw [h1, h5]; exact h.disk
  · rw [h2]; exact h.goodMem.sub h4
  · rw [h2, h5]; exact h.goodDisk
  · exact fun n f hf => h.uuid n f (h3 n f hf)
  · rw [h1]; exact h.same

theorem getFile_del_some {n m : Nat} {fs : List (Nat × Option File)} {f : File}
    (h : getFile m (delFile n fs) = some (some f)) : getFile m fs = some (some f) := by
  by_cases e : m = n
  · subst e; rw [getFile_del_self] at h; cases h
  · rwa [getFile_del_ne e] at h

theorem getFile_put_none {n m : Nat} {fs : List (Nat × Option File)} {f : File}
    (h : getFile m (putFile n none fs) = some (some f)) : getFile m fs = some (some f) := by
  by_cases e : m = n
  · subst e; rw [getFile_put_self] at h; cases h
  · rwa [getFile_put_ne e] at h

/-- The index on disk is lost. -/
theorem Same.noIndex {s : St} (h : Same s) (d : IndexFile) (hd : ∀ l, d ≠ .good l) : Same { s with dIndex := d } :=
  ⟨h.used, h.file, h.mem, fun _ _ l e => absurd e (hd l), h.goodMem, fun l e => absurd e (hd l), h.uuid,
   fun _ l e => absurd e (hd l), h.tip, h.same⟩

/-- The index is written, or not. -/
theorem Same.write {s : St} (h : Same s) (o : Out) (pc : Pc) (hp : s.pc.sealing = true → o ≠ .fail) (ht : Tip s.idx pc) :
    Same ((s.writeIndex o).goto pc) := by
  cases o with
  | ok =>
    exact ⟨h.used, h.file, h.mem, (by intro u hu l e; cases e; exact h.mem u hu), h.goodMem,
      (by intro l e; cases e; exact h.goodMem), h.uuid, fun _ => Agree.self h.goodMem, ht, h.same⟩
  | fail =>
    refine h.of rfl rfl rfl rfl rfl (fun _ => h.agree ?_) ht
    cases hs : s.pc.sealing with
    | true => exact absurd rfl (hp hs)
    | false => rfl
  | torn =>
    refine (h.noIndex .unreadable (by simp)).of rfl rfl rfl rfl rfl (fun _ => ?_) ht
    intro l e; cases e

theorem Same.fail {s : St} (h : Same s) (ha : Agree s.idx s.dIndex) (c : Cont) : Same (s.fail c) := by
  cases c <;> exact h.of rfl rfl rfl rfl rfl (fun _ => ha) trivial

theorem Same.enter {s : St} (h : Same s) (ha : Agree s.idx s.dIndex) (c : Cont) : Same (s.enter c) := by
  cases c <;> exact h.of rfl rfl rfl rfl rfl (fun _ => ha) trivial

theorem Same.merge {s : St} (h : Same s) (ha : Agree s.idx s.dIndex) (f : PFile) (ro old d)
    (hf : s.idx.getLast? = some f) (hs : f.stop = none) : Same (s.merge f f.name ro old d) := by
  unfold St.merge
  split
  · exact h.shrink rfl rfl (fun _ _ => id) (List.dropLast_sublist _) rfl (fun _ => ha.sub (List.dropLast_sublist _)) trivial
  · exact h.of rfl rfl rfl rfl rfl (fun _ => ha) ⟨rfl, f, List.mem_of_getLast? hf, rfl, hs⟩

/-- Closing an open file: those already uploaded are not open. -/
theorem closeLast_mem {e : Env} {l : List PFile} {f : PFile} (h : f ∈ closeLast e l) :
    f ∈ l ∨ ∃ g ∈ l, g.stop = none ∧ f = { g with stop := some e.now } := by
  unfold closeLast at h
  split at h
  · exact .inl h
  · rename_i g hg
    split at h
    · rename_i hc
      rcases List.mem_append.1 h with h' | h'
      · exact .inl ((List.dropLast_sublist _).subset h')
      · rw [List.mem_singleton] at h'
        refine .inr ⟨g, List.mem_of_getLast? hg, ?_, h'⟩
        simp at hc; exact hc.1
    · exact .inl h

theorem closeLast_names (e : Env) (l : List PFile) : (closeLast e l).map PFile.name = l.map PFile.name := by
  unfold closeLast
  split
  · rfl
  · rename_i g hg
    split
    · have hne : l ≠ [] := by intro e; subst e; cases hg
      rw [List.getLast?_eq_some_getLast hne] at hg
      have h2 := List.dropLast_concat_getLast hne
      have hg' : l.getLast hne = g := by simpa using hg
      rw [hg'] at h2
      rw [List.map_append]
      conv => rhs; rw [← h2, List.map_append]
      rfl
    · rfl

theorem Fits.close {u : Upload} {e : Env} {l : List PFile} (h : Fits u l) (hu : u.stop.isSome) : Fits u (closeLast e l) := by
  intro f hf hn
  rcases closeLast_mem hf with h' | ⟨g, hg, hs, rfl⟩
  · exact h f h' hn
  · have := (h g hg hn).2
    rw [hs] at this
    rw [← this] at hu; cases hu

theorem Good.close {n : Nat} {e : Env} {l : List PFile} (h : Good n l) : Good n (closeLast e l) := by
  refine ⟨by rw [closeLast_names]; exact h.1, ?_⟩
  intro f hf
  have : f.name ∈ (closeLast e l).map PFile.name := List.mem_map_of_mem hf
  rw [closeLast_names] at this
  obtain ⟨g, hg, e'⟩ := List.mem_map.1 this
  rw [← e']; exact h.2 g hg

theorem Good.push {n : Nat} {l : List PFile} (h : Good n l) (a b) : Good (n + 1) (l ++ [⟨n, a, b⟩]) := by
  refine ⟨?_, ?_⟩
  · rw [List.map_append, List.nodup_append]
    refine ⟨h.1, by simp, ?_⟩
    intro x hx y hy e
    simp at hy
    obtain ⟨g, hg, e'⟩ := List.mem_map.1 hx
    have := h.2 g hg
    omega
  · intro f hf
    rcases List.mem_append.1 hf with h' | h'
    · exact Nat.lt_succ_of_lt (h.2 f h')
    · rw [List.mem_singleton] at h'; rw [h']; exact Nat.lt_succ_self _

theorem Fits.push {u : Upload} {n : Nat} {l : List PFile} (h : Fits u l) (hu : u.uuid < n) (a b) : Fits u (l ++ [⟨n, a, b⟩]) := by
  intro f hf hn
  rcases List.mem_append.1 hf with h' | h'
  · exact h f h' hn
  · rw [List.mem_singleton] at h'; subst h'; simp at hn; omega

theorem Same.push {s : St} (h : Same s) (e : Env) (d : Content) : Same ((s.push e).goto (.writeIdx d)) := by
  refine ⟨?_, h.file, ?_, h.disk, h.goodMem.push _ _, ?_, h.uuid, ?_, ?_, h.same⟩
  · intro u hu; exact ⟨Nat.lt_succ_of_lt (h.used u hu).1, (h.used u hu).2⟩
  · intro u hu; exact (h.mem u hu).push (h.used u hu).1 _ _
  · intro l hl; exact (h.goodDisk l hl).mono (Nat.le_succ _)
  · intro e; cases e
  · intro f hf
    have hf' : (s.idx ++ [(⟨s.fresh, e.now, none⟩ : PFile)]).getLast? = some f := hf
    rw [List.getLast?_concat] at hf'; cases hf'; rfl

theorem Same.step {s : St} (h : Same s) (e : Env) (ho : steady s (.task e)) : Same (s.step e) := by
  have hag := h.agree
  have htip := h.tip
  unfold steady at ho
  dsimp only at ho
  unfold St.step
  generalize hpc : s.pc = pc at hag htip ho ⊢
  unfold St.stepAt
  cases pc with
  | idle => exact h
  | dead => exact h
  | stopped => exact h
  | snap k todo d =>
    cases todo with
    | nil => dsimp only; split <;> exact h.of rfl rfl rfl rfl rfl (fun _ => hag rfl) trivial
    | cons y t => dsimp only; split <;> (try split) <;> exact h.of rfl rfl rfl rfl rfl (fun _ => hag rfl) trivial
  | check k i c t d => dsimp only; split <;> (try split) <;> cases k <;> exact h.of rfl rfl rfl rfl rfl (fun _ => hag rfl) trivial
  | start c =>
    dsimp only; unfold St.start; split
    · exact h.enter (hag rfl) c
    · exact h.of rfl rfl rfl rfl rfl (fun _ => hag rfl) trivial
    · exact h.of rfl rfl rfl rfl rfl (fun _ => hag rfl) trivial
  | initRead c =>
    dsimp only; split
    · rename_i l _ hl
      refine Same.enter (s := { s with fm := .ready, idx := l }) ?_ ?_ c
      · exact ⟨h.used, h.file, fun u hu => h.disk u hu l hl, h.disk, h.goodDisk l hl, h.goodDisk, h.uuid,
          (by intro _; dsimp only; rw [hl]; exact Agree.self (h.goodDisk l hl)), (by rw [hpc]; trivial), h.same⟩
      · dsimp only; rw [hl]; exact Agree.self (h.goodDisk l hl)
    · exact h.of rfl rfl rfl rfl rfl (fun _ => hag rfl) trivial
  | initRm c =>
    dsimp only; split
    · refine ⟨h.used, ?_, h.mem, ?_, h.goodMem, ?_, ?_, ?_, trivial, h.same⟩
      · intro u hu f hf; cases hf
      · intro u hu l e; cases e
      · intro l e; cases e
      · intro n f hf; cases hf
      · intro _ l e; cases e
    · exact h.fail (hag rfl) c
  | initMk c =>
    dsimp only; split
    · refine Same.enter (s := { s with fm := .ready, idx := [] }) ?_ (Agree.nil _) c
      exact h.shrink rfl rfl (fun _ _ => id) (List.nil_sublist _) rfl (fun _ => Agree.nil _) (by rw [hpc]; trivial)
    · exact h.fail (hag rfl) c
  | decide d =>
    have hclose : Same ({ s with idx := closeLast e s.idx }.goto (.delOldest d)) :=
      ⟨h.used, h.file, fun u hu => (h.mem u hu).close (h.used u hu).2, h.disk, h.goodMem.close, h.goodDisk, h.uuid,
        (by intro e; cases e), trivial, h.same⟩
    dsimp only; split
    · split
      · exact hclose
      · exact hclose.push e d
    · rename_i hm
      refine h.of rfl rfl rfl rfl rfl (fun _ => hag rfl) ?_
      intro f hf
      have hf' : s.idx.getLast? = some f := hf
      unfold mustCreate at hm
      rw [hf'] at hm
      simp at hm
      exact hm.1
  | delOldest d =>
    dsimp only at ho
    dsimp only; split
    · exact h.of rfl rfl rfl rfl rfl (fun hs => by
        intro l hl g hg f hf
        have hf' : f ∈ s.idx := hf
        rename_i hi
        rw [hi] at hf'; cases hf') trivial
    · rename_i f rest hi
      rw [ho]
      dsimp only
      refine Same.push (s := ({ s with files := delFile f.name s.files, idx := rest }.lose .limit (contentAt f.name s.files))) ?_ e d
      refine h.shrink rfl rfl (fun n f => getFile_del_some) ?_ rfl ?_ ?_
      · show rest.Sublist s.idx
        rw [hi]; exact List.sublist_cons_self _ _
      · intro hs
        have : s.pc.sealing = false := hs
        rw [hpc] at this; cases this
      · show Tip rest s.pc
        rw [hpc]; trivial
  | writeIdx d =>
    dsimp only at ho
    dsimp only; split
    · split
      · rename_i f hf
        have hw : Same (s.writeIndex .ok) := by
          have := h.write .ok s.pc (by simp) (by rw [hpc]; exact htip)
          exact this
        exact hw.merge (Agree.self h.goodMem) f _ _ _ hf (htip f hf)
      · rename_i hl _
        refine h.of rfl rfl rfl rfl rfl (fun _ => ?_) trivial
        intro l _ g _ f hf
        have hf' : f ∈ s.idx := hf
        have : s.idx = [] := by rw [← List.getLast?_eq_none_iff]; assumption
        rw [this] at hf'; cases hf'
    · have := h.write e.out .idle (fun _ => ho) trivial
      exact this.of rfl rfl rfl rfl rfl (fun _ => this.agree rfl) trivial
  | readBack d =>
    dsimp only; split
    · exact h.of rfl rfl rfl rfl rfl (fun _ => hag rfl) trivial
    · rename_i f hf
      split
      · rename_i x _ hx
        rw [h.uuid _ _ hx]
        exact h.merge (hag rfl) f _ _ _ hf (htip f hf)
      · exact h.merge (hag rfl) f _ _ _ hf (htip f hf)
  | writeSnap n u ro old d =>
    obtain ⟨hun, f0, hf0, hn0, hs0⟩ := htip
    have hnot : ∀ a ∈ s.uploads, a.uuid ≠ n := by
      intro a ha e
      have h1 := (h.mem a ha f0 hf0 (hn0.trans e.symm)).2
      have h2 := (h.used a ha).2
      rw [← h1, hs0] at h2; cases h2
    dsimp only; split
    · refine ⟨h.used, ?_, h.mem, h.disk, h.goodMem, h.goodDisk, ?_, fun _ => hag rfl, trivial, h.same⟩
      · intro a ha f hf
        have hf' : getFile a.uuid (putFile n _ s.files) = some (some f) := hf
        rw [getFile_put_ne (hnot a ha)] at hf'
        exact h.file a ha f hf'
      · intro m f hf
        have hf' : getFile m (putFile n _ s.files) = some (some f) := hf
        by_cases e : m = n
        · subst e; rw [getFile_put_self] at hf'; cases hf'; exact hun
        · rw [getFile_put_ne e] at hf'; exact h.uuid m f hf'
    · exact h.fail (hag rfl) _
    · exact h.shrink rfl rfl (fun n f => getFile_put_none) (List.Sublist.refl _) rfl (fun _ => hag rfl) trivial
  | writeIdxEmpty => exact h.write e.out .idle (by rw [hpc]; intro e; cases e) trivial
  | upHead o =>
    dsimp only; split
    · exact h.of rfl rfl rfl rfl rfl (fun _ => hag rfl) trivial
    · rename_i f rest hi
      split
      · exact h.of rfl rfl rfl rfl rfl (fun _ => hag rfl) trivial
      · split
        · rename_i hs
          have hs : f.stop = none := by simpa using hs
          have hgm := h.goodMem
          have hm := h.mem
          rw [hi] at hgm hm
          refine ⟨h.used, h.file, ?_, h.disk, ?_, h.goodDisk, h.uuid, ?_, ?_, h.same⟩
          · intro u hu g hg hn
            have hg' : g ∈ { f with stop := some e.now } :: rest := hg
            rcases List.mem_cons.1 hg' with h' | h'
            · subst h'
              have h1 := (hm u hu f List.mem_cons_self hn).2
              have h2 := (h.used u hu).2
              rw [← h1, hs] at h2; cases h2
            · exact hm u hu g (List.mem_cons_of_mem _ h') hn
          · refine ⟨hgm.1, ?_⟩
            intro g hg
            have hg' : g ∈ { f with stop := some e.now } :: rest := hg
            rcases List.mem_cons.1 hg' with h' | h'
            · subst h'; exact hgm.2 f List.mem_cons_self
            · exact hgm.2 g (List.mem_cons_of_mem _ h')
          · intro e; cases e
          · intro g hg; cases hg; rfl
        · rename_i hs
          refine h.of rfl rfl rfl rfl rfl (fun _ => hag rfl) ?_
          intro g hg
          have hg' : s.idx.head? = some g := hg
          rw [hi] at hg'; cases hg'
          cases hq : f.stop with
          | none => rw [hq] at hs; simp at hs
          | some v => rfl
  | upWriteIdx o =>
    dsimp only at ho
    dsimp only; split
    · exact h.write .ok (.upRead o) (by simp) htip
    · exact h.write e.out .idle (fun _ => ho) trivial
  | upRead o =>
    dsimp only; split
    · rename_i hi
      exact h.of rfl rfl rfl rfl rfl (fun _ => hag rfl) trivial
    · rename_i f rest hi
      have hstop : f.stop.isSome := htip f (by rw [hi]; rfl)
      have hfm : f ∈ s.idx := by rw [hi]; exact List.mem_cons_self
      split
      · rename_i x _ hx
        have hxu := h.uuid _ _ hx
        split
        · have hone : ∀ a ∈ s.uploads, a.uuid = x.uuid → a = Upload.mk x.uuid x.content f.start f.stop := by
            intro a ha he
            have h1 := h.file a ha x (by rw [he, hxu]; exact hx)
            have h2 := h.mem a ha f hfm (by rw [he, hxu])
            cases a
            simp_all
          refine ⟨?_, ?_, ?_, ?_, h.goodMem, h.goodDisk, h.uuid, fun _ => hag rfl, trivial, ?_⟩
          · intro u hu
            rcases List.mem_append.1 hu with h' | h'
            · exact h.used u h'
            · rw [List.mem_singleton] at h'; subst h'
              exact ⟨by dsimp only; rw [hxu]; exact h.goodMem.2 f hfm, hstop⟩
          · intro u hu y hy
            rcases List.mem_append.1 hu with h' | h'
            · exact h.file u h' y hy
            · rw [List.mem_singleton] at h'; subst h'
              have hy' : getFile x.uuid s.files = some (some y) := hy
              rw [hxu, hx] at hy'; cases hy'; rfl
          · intro u hu
            rcases List.mem_append.1 hu with h' | h'
            · exact h.mem u h'
            · rw [List.mem_singleton] at h'; subst h'
              intro g hg hn
              have hn' : g.name = x.uuid := hn
              have := h.goodMem.inj hg hfm (by rw [hn', hxu])
              subst this; exact ⟨rfl, rfl⟩
          · intro u hu l hl
            rcases List.mem_append.1 hu with h' | h'
            · exact h.disk u h' l hl
            · rw [List.mem_singleton] at h'; subst h'
              intro g hg hn
              have hn' : g.name = x.uuid := hn
              have := hag rfl l hl g hg f hfm (by rw [hn', hxu]) hstop
              subst this; exact ⟨rfl, rfl⟩
          · intro a ha b hb he
            rcases List.mem_append.1 ha with h' | h' <;> rcases List.mem_append.1 hb with h'' | h''
            · exact h.same a h' b h'' he
            · rw [List.mem_singleton] at h''; subst h''; exact hone a h' he
            · rw [List.mem_singleton] at h'; subst h'; exact (hone b h'' he.symm).symm
            · rw [List.mem_singleton] at h' h''; rw [h', h'']
        · exact h.of rfl rfl rfl rfl rfl (fun _ => hag rfl) trivial
      · exact h.of rfl rfl rfl rfl rfl (fun _ => hag rfl) trivial
  | upDel o =>
    dsimp only; split
    · exact h.of rfl rfl rfl rfl rfl (fun _ => hag rfl) trivial
    · rename_i f rest hi
      split
      · have hsub : rest.Sublist s.idx := by rw [hi]; exact List.sublist_cons_self _ _
        exact h.shrink rfl rfl (fun n f => getFile_del_some) hsub rfl (fun _ => (hag rfl).sub hsub) trivial
      · exact h.of rfl rfl rfl rfl rfl (fun _ => hag rfl) trivial
  | upDelIdx o =>
    dsimp only; split
    · exact h.write .ok (.upHead o) (by simp) trivial
    · exact h.write e.out .idle (by rw [hpc]; intro e; cases e) trivial
  | complete u => dsimp only; split <;> (try split) <;> exact h.of rfl rfl rfl rfl rfl (fun _ => hag rfl) trivial
  | compDel u =>
    dsimp only; split
    · exact h.of rfl rfl rfl rfl rfl (fun _ => hag rfl) trivial
    · rename_i f rest hi
      split
      · have hsub : rest.Sublist s.idx := by rw [hi]; exact List.sublist_cons_self _ _
        exact h.shrink rfl rfl (fun n f => getFile_del_some) hsub rfl (fun _ => (hag rfl).sub hsub) trivial
      · exact h.of rfl rfl rfl rfl rfl (fun _ => hag rfl) trivial
  | compIdx u => exact h.write e.out (.start (.upload true)) (by rw [hpc]; intro e; cases e) trivial

theorem Same.tear {s : St} (h : Same s) : Same s.tear := by
  unfold St.tear
  split
  case h_6 => exact h.shrink rfl rfl (fun n f => getFile_put_none) (List.Sublist.refl _) rfl h.agree h.tip
  case h_7 => exact h
  all_goals exact h.noIndex .unreadable (by simp)

theorem Same.crash {s : St} (h : Same s) (b : Bool) : Same (s.crash b) := by
  have ht : Same (if b then s.tear else s) := by split; exact h.tear; exact h
  unfold St.crash
  exact ht.shrink rfl rfl (fun _ _ => id) (List.nil_sublist _) rfl (fun _ => Agree.nil _) trivial

theorem Same.apply {s : St} (h : Same s) (op : Op) (ho : steady s op) : Same (s.apply op) := by
  cases op with
  | get k id kind limit =>
    obtain ⟨h1, h2, _, h4, _, _, h7, h8, h9, _⟩ := s.get_idx k id kind limit
    exact h.of h8 h9 h7 h1 h2 (fun hs => by
      rw [show (s.apply (.get k id kind limit)).pc = s.pc from h4] at hs
      rw [show (s.apply (.get k id kind limit)).idx = s.idx from h1, show (s.apply (.get k id kind limit)).dIndex = s.dIndex from h2]
      exact h.agree hs) (by
      rw [show (s.apply (.get k id kind limit)).idx = s.idx from h1, show (s.apply (.get k id kind limit)).pc = s.pc from h4]
      exact h.tip)
  | record c r =>
    obtain ⟨h1, h2, _, h4, _, _, h7, h8, h9, _⟩ := s.record_idx c r
    exact h.of h8 h9 h7 h1 h2 (fun hs => by
      rw [show (s.apply (.record c r)).pc = s.pc from h4] at hs
      rw [show (s.apply (.record c r)).idx = s.idx from h1, show (s.apply (.record c r)).dIndex = s.dIndex from h2]
      exact h.agree hs) (by
      rw [show (s.apply (.record c r)).idx = s.idx from h1, show (s.apply (.record c r)).pc = s.pc from h4]
      exact h.tip)
  | release c => exact h.of rfl rfl rfl rfl rfl h.agree h.tip
  | flush =>
    unfold St.apply; dsimp only; split
    · rename_i hp; exact h.of rfl rfl rfl rfl rfl (fun _ => h.agree (by rw [hp]; rfl)) trivial
    · exact h
  | upload =>
    unfold St.apply; dsimp only; split
    · rename_i hp; exact h.of rfl rfl rfl rfl rfl (fun _ => h.agree (by rw [hp.1]; rfl)) trivial
    · exact h
  | response b =>
    unfold St.apply; dsimp only; split
    · rename_i hp
      split
      · split
        · exact h.of rfl rfl rfl rfl rfl (fun _ => h.agree (by rw [hp]; rfl)) trivial
        · exact h.of rfl rfl rfl rfl rfl h.agree h.tip
      · exact h
    · exact h
  | shutdown =>
    unfold St.apply; dsimp only; split
    · rename_i hp; exact h.of rfl rfl rfl rfl rfl (fun _ => h.agree (by rw [hp]; rfl)) trivial
    · exact h
  | task e => exact h.step e ho
  | crash b => exact h.crash b
  | damageIndex b =>
    unfold St.apply; dsimp only; split
    · cases b
      · exact h.noIndex .missing (by simp)
      · exact h.noIndex .unreadable (by simp)
    · exact h
  | damageFile n b =>
    unfold St.apply; dsimp only; split
    · refine h.shrink rfl rfl ?_ (List.Sublist.refl _) rfl h.agree h.tip
      intro m f hf
      cases b
      · exact getFile_del_some hf
      · exact getFile_put_none hf
    · exact h

/-! ### What the server received -/

/-- The metrics of some uploads. -/
def received (us : List Upload) : Content := (us.map Upload.content).flatten

/-- Uploads with distinct identifiers, taken from those sent. -/
structure Distinct (s : St) (us : List Upload) : Prop where
  nodup : (us.map Upload.uuid).Nodup
  sent : ∀ u ∈ us, u ∈ s.uploads

theorem received_cons (u : Upload) (us : List Upload) : received (u :: us) = u.content ++ received us := rfl

/-- The metrics that are settled: acknowledged or discarded. -/
def St.settled (s : St) (id : Id) (x : Atom) : Nat :=
  cnt id x (s.acked.map Prod.snd).flatten + cnt id x (s.dropped.map Prod.snd).flatten

/-- What was uploaded and is not on disk any more is settled. -/
def Sent (s : St) : Prop :=
  ∀ us, Distinct s us → (∀ u ∈ us, ∀ f, getFile u.uuid s.files ≠ some (some f)) →
    ∀ id x, cnt id x (received us) ≤ s.settled id x

/-- Uploads with distinct identifiers whose files are on disk are no more than what is on disk. -/
theorem received_files {fs : List (Nat × Option File)} (hn : (fs.map Prod.fst).Nodup) (us : List Upload)
    (hd : (us.map Upload.uuid).Nodup) (h : ∀ u ∈ us, ∃ f, getFile u.uuid fs = some (some f) ∧ f.content = u.content)
    (id : Id) (x : Atom) : cnt id x (received us) ≤ cnt id x (allFiles fs) := by
  induction us generalizing fs with
  | nil => exact Nat.zero_le _
  | cons u us ih =>
    obtain ⟨f, hf, hc⟩ := h u List.mem_cons_self
    simp only [List.map_cons, List.nodup_cons] at hd
    have := ih (nodup_del (n := u.uuid) hn) hd.2 (by
      intro v hv
      obtain ⟨g, hg, hgc⟩ := h v (List.mem_cons_of_mem _ hv)
      refine ⟨g, ?_, hgc⟩
      rw [getFile_del_ne ?_]; exact hg
      intro e; exact hd.1 (e ▸ List.mem_map_of_mem hv))
    have h2 := cnt_del (n := u.uuid) hn id x
    rw [received_cons, cnt_append]
    unfold contentAt at h2
    rw [hf] at h2
    simp only [fileContent] at h2
    rw [hc] at h2
    omega

theorem cnt_received_split (us : List Upload) (q : Upload → Bool) (id : Id) (x : Atom) :
    cnt id x (received us) = cnt id x (received (us.filter q)) + cnt id x (received (us.filter fun u => !q u)) := by
  induction us with
  | nil => rfl
  | cons u us ih =>
    rw [received_cons, cnt_append, ih]
    cases hq : q u <;> simp [hq, received_cons, cnt_append] <;> omega

/-- What leaves the disk is settled. -/
theorem Sent.leave {s t : St} (h : Sent s) (hs : Same s) (hb : (s.files.map Prod.fst).Nodup) (h1 : t.uploads = s.uploads)
    (hw : (t.files = [] ∧ ∀ id x, s.settled id x + cnt id x (allFiles s.files) ≤ t.settled id x) ∨
      ∃ n, (∀ m f, m ≠ n → getFile m s.files = some (some f) → getFile m t.files = some (some f)) ∧
        ((∀ f, getFile n s.files = some (some f) → getFile n t.files = some (some f)) ∧ (∀ id x, s.settled id x ≤ t.settled id x) ∨
         ∀ id x, s.settled id x + cnt id x (contentAt n s.files) ≤ t.settled id x)) : Sent t := by
  intro us hd hu id x
  have hon : ∀ u ∈ us, u ∈ s.uploads := fun u h => h1 ▸ hd.sent u h
  let q : Upload → Bool := fun u => match getFile u.uuid s.files with | some (some _) => true | _ => false
  have hsplit := cnt_received_split us q id x
  have hq1 : ∀ u ∈ us.filter q, ∃ f, getFile u.uuid s.files = some (some f) ∧ f.content = u.content := by
    intro u hu'
    obtain ⟨hm, hq⟩ := List.mem_filter.1 hu'
    dsimp only [q] at hq
    split at hq
    · rename_i f hf; exact ⟨f, hf, hs.file u (hon u hm) f hf⟩
    · cases hq
  have hq2 : cnt id x (received (us.filter fun u => !q u)) ≤ s.settled id x := by
    apply h
    · exact ⟨hd.nodup.sublist (List.filter_sublist.map _), fun u hu' => hon u (List.mem_filter.1 hu').1⟩
    · intro u hu' f hf
      have := (List.mem_filter.1 hu').2
      dsimp only [q] at this
      rw [hf] at this; cases this
  have hn1 : ((us.filter q).map Upload.uuid).Nodup := hd.nodup.sublist (List.filter_sublist.map _)
  rcases hw with ⟨_, hle⟩ | ⟨n, hother, hn⟩
  · have := received_files hb _ hn1 hq1 id x
    have := hle id x
    omega
  · -- those with files on disk before are all named `n`
    have hall : ∀ u ∈ us.filter q, u.uuid = n := by
      intro u hu'
      obtain ⟨f, hf, _⟩ := hq1 u hu'
      apply Classical.byContradiction
      intro hne
      exact hu u (List.mem_filter.1 hu').1 f (hother _ _ hne hf)
    have hcase : us.filter q = [] ∨ ∃ u, us.filter q = [u] := by
      cases hl : us.filter q with
      | nil => exact .inl rfl
      | cons a l =>
        cases l with
        | nil => exact .inr ⟨a, rfl⟩
        | cons b l =>
          rw [hl] at hn1 hall
          have e1 := hall a (by simp)
          have e2 := hall b (by simp)
          simp [e1, e2] at hn1
    rcases hcase with hc | ⟨u, hc⟩
    · rw [hc] at hsplit
      have hz : cnt id x (received []) = 0 := rfl
      rcases hn with ⟨_, hle⟩ | hle
      · have := hle id x; omega
      · have := hle id x; omega
    · have hmem : u ∈ us.filter q := by rw [hc]; exact List.mem_cons_self
      obtain ⟨f, hf, hfc⟩ := hq1 u hmem
      have hun := hall u hmem
      rw [hun] at hf
      rcases hn with ⟨hk, _⟩ | hle
      · exact absurd (hk f hf) (hun ▸ hu u (List.mem_filter.1 hmem).1 f)
      · have h3 := hle id x
        rw [hc] at hsplit
        have h4 : cnt id x (received [u]) = cnt id x (contentAt n s.files) := by
          unfold contentAt
          rw [hf, received_cons, cnt_append, hfc.symm]
          simp [received, fileContent, cnt]
        omega

/-- The files stay. -/
theorem Sent.stay {s t : St} (h : Sent s) (h1 : t.uploads = s.uploads) (h2 : t.files = s.files)
    (h3 : ∀ id x, s.settled id x ≤ t.settled id x) : Sent t := by
  intro us hd hu id x
  refine Nat.le_trans (h us ⟨hd.nodup, h1 ▸ hd.sent⟩ ?_ id x) (h3 id x)
  rw [← h2]; exact hu

theorem settled_lose (s : St) (r : Reason) (c : Content) (id : Id) (x : Atom) :
    (s.lose r c).settled id x = s.settled id x + cnt id x c := by
  unfold St.settled St.lose
  simp [cnt_append]; omega

theorem settled_goto (s : St) (pc : Pc) (id : Id) (x : Atom) : (s.goto pc).settled id x = s.settled id x := rfl

theorem settled_of {s t : St} (h1 : t.acked = s.acked) (h2 : t.dropped = s.dropped) (id : Id) (x : Atom) :
    t.settled id x = s.settled id x := by
  unfold St.settled; rw [h1, h2]

theorem Sent.init : Sent St.init := by
  intro us hd _ id x
  cases us with
  | nil => exact Nat.zero_le _
  | cons u us => cases hd.sent u List.mem_cons_self

theorem Sent.fail {s : St} (h : Sent s) (c : Cont) : Sent (s.fail c) := by
  cases c
  · exact h.stay rfl rfl (fun id x => by unfold St.fail; rw [settled_goto, settled_lose]; omega)
  · exact h.stay rfl rfl (fun id x => Nat.le_refl _)
  · exact h.stay rfl rfl (fun id x => Nat.le_refl _)

theorem Sent.enter {s : St} (h : Sent s) (c : Cont) : Sent (s.enter c) := by
  cases c <;> exact h.stay rfl rfl (fun _ _ => Nat.le_refl _)

theorem Sent.merge {s : St} (h : Sent s) (f u ro old d) : Sent (s.merge f u ro old d) := by
  unfold St.merge; split <;> exact h.stay rfl rfl (fun _ _ => Nat.le_refl _)

theorem Sent.write {s : St} (h : Sent s) (o : Out) : Sent (s.writeIndex o) := by
  cases o <;> exact h.stay rfl rfl (fun _ _ => Nat.le_refl _)

theorem Sent.write_goto {s : St} (h : Sent s) (o : Out) (pc : Pc) : Sent ((s.writeIndex o).goto pc) :=
  (h.write o).stay rfl rfl (fun _ _ => Nat.le_refl _)

/-- A file leaves the disk and its metrics are settled. -/
theorem Sent.del {s t : St} (h : Sent s) (hs : Same s) (hb : (s.files.map Prod.fst).Nodup) (h1 : t.uploads = s.uploads)
    (n : Nat) (h2 : t.files = delFile n s.files ∨ t.files = putFile n none s.files)
    (h3 : ∀ id x, s.settled id x + cnt id x (contentAt n s.files) ≤ t.settled id x) : Sent t := by
  refine h.leave hs hb h1 (.inr ⟨n, ?_, .inr h3⟩)
  intro m f hm hf
  rcases h2 with h2 | h2 <;> rw [h2]
  · rw [getFile_del_ne hm]; exact hf
  · rw [getFile_put_ne hm]; exact hf

theorem Sent.step {s : St} (h : Sent s) (hs : Same s) (hb : Bal s) (e : Env) : Sent (s.step e) := by
  have htip := hs.tip
  unfold St.step
  generalize hpc : s.pc = pc at htip ⊢
  unfold St.stepAt
  cases pc with
  | idle => exact h
  | dead => exact h
  | stopped => exact h
  | snap k todo d =>
    cases todo with
    | nil => dsimp only; split <;> exact h.stay rfl rfl (fun _ _ => Nat.le_refl _)
    | cons y t =>
      dsimp only; split
      · exact h.stay rfl rfl (fun _ _ => Nat.le_refl _)
      · split
        · exact h.stay rfl rfl (fun _ _ => Nat.le_refl _)
        · exact h.stay rfl rfl (fun id x => by rw [settled_goto, settled_lose]; exact Nat.le_add_right _ _)
  | check k i c t d =>
    dsimp only; split
    · exact h.stay rfl rfl (fun _ _ => Nat.le_refl _)
    · split
      · exact h.stay rfl rfl (fun _ _ => Nat.le_refl _)
      · cases k <;> exact h.stay rfl rfl (fun id x =>
          Nat.le_trans (Nat.le_add_right _ _) (Nat.le_of_eq (settled_lose s .race _ id x).symm))
  | start c =>
    dsimp only; unfold St.start; split
    · exact h.enter c
    · exact h.stay rfl rfl (fun _ _ => Nat.le_refl _)
    · exact h.stay rfl rfl (fun id x => Nat.le_trans (Nat.le_add_right _ _) (Nat.le_of_eq (settled_lose s .panic _ id x).symm))
  | initRead c =>
    dsimp only; split
    · refine Sent.enter ?_ c
      exact h.stay rfl rfl (fun _ _ => Nat.le_refl _)
    · exact h.stay rfl rfl (fun _ _ => Nat.le_refl _)
  | initRm c =>
    dsimp only; split
    · exact h.leave hs hb.nodup rfl (.inl ⟨rfl, fun id x => Nat.le_of_eq (settled_lose s .unreadable _ id x).symm⟩)
    · exact h.fail c
  | initMk c =>
    dsimp only; split
    · refine Sent.enter ?_ c
      exact h.stay rfl rfl (fun _ _ => Nat.le_refl _)
    · exact h.fail c
  | decide d => dsimp only; split <;> (try split) <;> exact h.stay rfl rfl (fun _ _ => Nat.le_refl _)
  | delOldest d =>
    dsimp only; split
    · exact h.stay rfl rfl (fun id x => Nat.le_trans (Nat.le_add_right _ _) (Nat.le_of_eq (settled_lose s .panic _ id x).symm))
    · rename_i f rest hi
      split
      · exact h.del hs hb.nodup rfl f.name (.inl rfl) (fun id x => Nat.le_of_eq (settled_lose s .limit _ id x).symm)
      · exact h.fail _
  | writeIdx d =>
    dsimp only; split
    · split
      · exact (h.write _).merge _ _ _ _ _
      · exact h.fail _
    · exact (h.write _).fail _
  | readBack d =>
    dsimp only; split
    · exact h.stay rfl rfl (fun id x => Nat.le_trans (Nat.le_add_right _ _) (Nat.le_of_eq (settled_lose s .panic _ id x).symm))
    · split <;> exact h.merge _ _ _ _ _
  | writeSnap n u ro old d =>
    obtain ⟨hun, f0, hf0, hn0, hs0⟩ := htip
    have hnot : ∀ a ∈ s.uploads, a.uuid ≠ n := by
      intro a ha e
      have h1 := (hs.mem a ha f0 hf0 (hn0.trans e.symm)).2
      have h2 := (hs.used a ha).2
      rw [← h1, hs0] at h2; cases h2
    dsimp only; split
    · intro us hd hu id x
      refine Nat.le_trans (h us ⟨hd.nodup, hd.sent⟩ ?_ id x) ?_
      · intro v hv f hf
        refine hu v hv f ?_
        show getFile v.uuid (putFile n _ s.files) = _
        rw [getFile_put_ne (hnot v (hd.sent v hv))]; exact hf
      · rw [settled_goto, settled_lose, settled_lose]
        exact Nat.le_trans (Nat.le_add_right _ _) (Nat.le_add_right _ _)
    · exact h.fail _
    · refine Sent.fail ?_ _
      exact h.del hs hb.nodup rfl n (.inr rfl) (fun id x => Nat.le_of_eq (settled_lose s .unreadable _ id x).symm)
  | writeIdxEmpty => exact h.write_goto _ _
  | upHead o => dsimp only; split <;> (try split) <;> (try split) <;> exact h.stay rfl rfl (fun _ _ => Nat.le_refl _)
  | upWriteIdx o =>
    dsimp only; split
    · exact h.write_goto _ _
    · exact h.write_goto _ _
  | upRead o =>
    dsimp only; split
    · exact h.stay rfl rfl (fun _ _ => Nat.le_refl _)
    · split
      · rename_i f rest _ x _ hx
        split
        · intro us hd hu id y
          refine h us ⟨hd.nodup, ?_⟩ hu id y
          intro u hu'
          rcases List.mem_append.1 (hd.sent u hu') with h' | h'
          · exact h'
          · rw [List.mem_singleton] at h'
            exfalso
            refine hu u hu' x ?_
            rw [h']
            show getFile x.uuid s.files = _
            rw [hs.uuid _ _ hx]; exact hx
        · exact h.stay rfl rfl (fun _ _ => Nat.le_refl _)
      · exact h.stay rfl rfl (fun _ _ => Nat.le_refl _)
  | upDel o =>
    dsimp only; split
    · exact h.stay rfl rfl (fun _ _ => Nat.le_refl _)
    · rename_i f rest hi
      split
      · exact h.del hs hb.nodup rfl f.name (.inl rfl) (fun id x => Nat.le_of_eq (settled_lose s .unreadable _ id x).symm)
      · exact h.stay rfl rfl (fun _ _ => Nat.le_refl _)
  | upDelIdx o =>
    dsimp only; split
    · exact h.write_goto _ _
    · exact h.write_goto _ _
  | complete u => dsimp only; split <;> (try split) <;> exact h.stay rfl rfl (fun _ _ => Nat.le_refl _)
  | compDel u =>
    dsimp only; split
    · exact h.stay rfl rfl (fun _ _ => Nat.le_refl _)
    · rename_i f rest hi
      split
      · refine h.del hs hb.nodup rfl f.name (.inl rfl) (fun id x => ?_)
        show s.settled id x + _ ≤ cnt id x _ + cnt id x _
        unfold St.settled St.goto
        simp only [List.map_cons, List.flatten_cons, cnt_append]
        omega
      · exact h.stay rfl rfl (fun _ _ => Nat.le_refl _)
  | compIdx u => exact h.write_goto _ _

theorem Sent.apply {s : St} (h : Sent s) (hs : Same s) (hb : Bal s) (op : Op) : Sent (s.apply op) := by
  cases op with
  | get k id kind limit =>
    obtain ⟨h1, h2, _, h4, _, h6, h7, h8, h9, h10⟩ := s.get_idx k id kind limit
    exact h.stay h8 h7 (fun id x => Nat.le_of_eq (settled_of h10 h6 id x).symm)
  | record c r =>
    obtain ⟨h1, h2, _, h4, _, h6, h7, h8, h9, h10, _⟩ := s.record_idx c r
    exact h.stay h8 h7 (fun id x => Nat.le_of_eq (settled_of h10 h6 id x).symm)
  | release c => exact h.stay rfl rfl (fun _ _ => Nat.le_refl _)
  | flush => unfold St.apply; dsimp only; split <;> exact h.stay rfl rfl (fun _ _ => Nat.le_refl _)
  | upload => unfold St.apply; dsimp only; split <;> exact h.stay rfl rfl (fun _ _ => Nat.le_refl _)
  | response b =>
    unfold St.apply; dsimp only
    split <;> (try split) <;> (try split) <;> exact h.stay rfl rfl (fun _ _ => Nat.le_refl _)
  | shutdown => unfold St.apply; dsimp only; split <;> exact h.stay rfl rfl (fun _ _ => Nat.le_refl _)
  | task e => exact h.step hs hb e
  | crash b =>
    show Sent (s.crash b)
    have ht : Sent (if b then s.tear else s) := by
      split
      · unfold St.tear
        split
        case h_6 n _ _ _ _ _ => exact h.del hs hb.nodup rfl n (.inr rfl) (fun id x => Nat.le_of_eq (settled_lose s .unreadable _ id x).symm)
        all_goals exact h.stay rfl rfl (fun _ _ => Nat.le_refl _)
      · exact h
    unfold St.crash
    exact ht.stay rfl rfl (fun id x => Nat.le_trans (Nat.le_add_right _ _) (Nat.le_of_eq (settled_lose _ .crash _ id x).symm))
  | damageIndex b => unfold St.apply; dsimp only; split <;> exact h.stay rfl rfl (fun _ _ => Nat.le_refl _)
  | damageFile n b =>
    unfold St.apply; dsimp only; split
    · exact h.del hs hb.nodup rfl n (by cases b; exact .inl rfl; exact .inr rfl)
        (fun id x => Nat.le_of_eq (settled_lose s .damage _ id x).symm)
    · exact h

end Verif.Stats
