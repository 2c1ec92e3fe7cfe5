import Verif.Stats.CollProps

/-! C60: a flush writes what was recorded, an upload sends it, an acknowledgement removes it. -/
namespace Verif.Stats

/-- The task runs alone in an environment where nothing fails. -/
inductive Runs (e : Env) : St → St → Prop
  | refl (s) : Runs e s s
  | step {s t} : Runs e (s.apply (.task e)) t → Runs e s t

theorem Runs.trans {e : Env} {a b c : St} (h : Runs e a b) (h' : Runs e b c) : Runs e a c := by
  induction h with
  | refl => exact h'
  | step _ ih => exact .step (ih h')

theorem Runs.run {e : Env} {a b : St} (h : Runs e a b) : ∃ n, b = a.run (List.replicate n (.task e)) := by
  induction h with
  | refl s => exact ⟨0, rfl⟩
  | step _ ih => obtain ⟨n, hn⟩ := ih; exact ⟨n + 1, hn⟩

/-- The metric in this cell holds nothing. -/
def EmptyAt (s : St) (c : Nat) : Prop := ∀ x, s.cells[c]? = some x → ∀ a, x.2.count a = 0

/-- What visiting a collector does to the rest. -/
structure Visited (k : Bool) (s t : St) : Prop where
  fm : t.fm = s.fm
  idx : t.idx = s.idx
  empty : ∀ c, EmptyAt s c → EmptyAt t c
  maps : Maps t
  names : Names t
  colls : (t.stat.Sublist s.stat) ∧ (t.dyn.Sublist s.dyn)
  other : t.coll (!k) = s.coll (!k)

theorem EmptyAt.set {s : St} {c i : Nat} (h : EmptyAt s c) {x : Id × Metric} (hx : ∀ a, x.2.count a = 0) (s' : St)
    (hs : s'.cells = s.cells.set i x) : EmptyAt s' c := by
  intro y hy
  rw [hs, List.getElem?_set] at hy
  split at hy
  · split at hy
    · cases hy; exact hx
    · cases hy
  · exact h y hy

/-- One collector is visited to its end. -/
theorem visit (e : Env) (k : Bool) : ∀ (todo : List (Id × Nat)) (d : Content) (s : St), Maps s → Names s → s.pc = .snap k todo d →
    ∃ t d', Runs e s t ∧ t.pc = .snap k [] d' ∧ Visited k s t ∧ ∀ p ∈ todo, EmptyAt t p.2 := by
  intro todo
  induction todo with
  | nil =>
    intro d s hm hn hp
    exact ⟨s, d, .refl s, hp, ⟨rfl, rfl, fun _ => id, hm, hn, ⟨List.Sublist.refl _, List.Sublist.refl _⟩, rfl⟩, by simp⟩
  | cons y todo ih =>
    intro d s hm hn hp
    obtain ⟨id, c⟩ := y
    -- it suffices to get to the rest of the list with this metric empty
    have hrest : ∀ (s1 : St) d1, Runs e s s1 → s1.pc = .snap k todo d1 → s1.fm = s.fm → s1.idx = s.idx →
        (∀ c, EmptyAt s c → EmptyAt s1 c) → EmptyAt s1 c → Maps s1 → Names s1 → s1.stat.Sublist s.stat → s1.dyn.Sublist s.dyn → s1.coll (!k) = s.coll (!k) →
        ∃ t d', Runs e s t ∧ t.pc = .snap k [] d' ∧ Visited k s t ∧ ∀ p ∈ (id, c) :: todo, EmptyAt t p.2 := by
      intro s1 d1 hr hp1 hfm hidx hemp hc hm1 hn1 hst hdy hoth
      obtain ⟨t, d', hrt, hpt, hv, htodo⟩ := ih d1 s1 hm1 hn1 hp1
      refine ⟨t, d', hr.trans hrt, hpt, ⟨hv.fm.trans hfm, hv.idx.trans hidx, fun c h => hv.empty c (hemp c h), hv.maps,
        hv.names, ⟨hv.colls.1.trans hst, hv.colls.2.trans hdy⟩, hv.other.trans hoth⟩, ?_⟩
      intro p hp'
      rcases List.mem_cons.1 hp' with h' | h'
      · subst h'; exact hv.empty c hc
      · exact htodo p h'
    have hstep : s.apply (.task e) = s.stepAt e (.snap k ((id, c) :: todo) d) := by
      show s.step e = _; unfold St.step; rw [hp]
    have hm1 := hm.apply (.task e)
    have hn1 := hn.apply (.task e)
    unfold St.stepAt at hstep
    dsimp only at hstep
    cases hx : s.cells[c]? with
    | none =>
      rw [hx] at hstep; dsimp only at hstep
      refine hrest _ d (.step (.refl _)) (by rw [hstep]; rfl) (by rw [hstep]; rfl) (by rw [hstep]; rfl) ?_ ?_ hm1 hn1
        (by rw [hstep]; exact List.Sublist.refl _) (by rw [hstep]; exact List.Sublist.refl _) (by rw [hstep]; cases k <;> rfl)
      · rw [hstep]; exact fun c h => h
      · rw [hstep]; intro z hz
        have hz' : s.cells[c]? = some z := hz
        rw [hx] at hz'; cases hz'
    | some x =>
      rw [hx] at hstep; dsimp only at hstep
      cases hsn : x.2.snap with
      | mk o m' =>
        rw [hsn] at hstep
        cases o with
        | some m =>
          dsimp only at hstep
          have hz : ∀ a, (x.1, m').2.count a = 0 := fun a => (Metric.snap_some hsn a).2
          refine hrest _ _ (.step (.refl _)) (by rw [hstep]; rfl) (by rw [hstep]; rfl) (by rw [hstep]; rfl) ?_ ?_ hm1 hn1
            (by rw [hstep]; exact List.Sublist.refl _) (by rw [hstep]; exact List.Sublist.refl _) (by rw [hstep]; cases k <;> rfl)
          · rw [hstep]; exact fun c' h => h.set hz _ rfl
          · rw [hstep]; intro z hzz
            have hzz' : (s.cells.set c (x.1, m'))[c]? = some z := hzz
            rw [List.getElem?_set, if_pos rfl] at hzz'
            split at hzz'
            · cases hzz'; exact hz
            · cases hzz'
        | none =>
          dsimp only at hstep
          -- nothing there: the test for references
          have hp1 : (s.apply (.task e)).pc = .check k id c todo d := by rw [hstep]; rfl
          have hxz : ∀ a, x.2.count a = 0 := fun a => (Metric.snap_none hsn a).1
          have hcells : (s.apply (.task e)).cells = s.cells := by rw [hstep]; rfl
          have hh : (s.apply (.task e)).handles = s.handles := by rw [hstep]; rfl
          have hfm : (s.apply (.task e)).fm = s.fm := by rw [hstep]; rfl
          have hidx : (s.apply (.task e)).idx = s.idx := by rw [hstep]; rfl
          have hst : (s.apply (.task e)).stat = s.stat := by rw [hstep]; rfl
          have hdy : (s.apply (.task e)).dyn = s.dyn := by rw [hstep]; rfl
          have hr1 : Runs e s (s.apply (.task e)) := .step (.refl _)
          have hm2 := hm1.apply (.task e)
          have hn2 := hn1.apply (.task e)
          clear hstep
          generalize s.apply (.task e) = s1 at hp1 hcells hh hfm hidx hst hdy hr1 hm1 hn1 hm2 hn2
          have hstep2 : s1.apply (.task e) = s1.stepAt e (.check k id c todo d) := by
            show s1.step e = _; unfold St.step; rw [hp1]
          unfold St.stepAt at hstep2
          dsimp only at hstep2
          have hr : Runs e s (s1.apply (.task e)) := hr1.trans (.step (.refl _))
          have hE : ∀ c, EmptyAt s c → EmptyAt s1 c := by intro c h y hy; rw [hcells] at hy; exact h y hy
          have hc1 : EmptyAt s1 c := by
            intro y hy; rw [hcells, hx] at hy; cases hy; exact hxz
          by_cases hin : c ∈ s1.handles
          · rw [if_pos hin] at hstep2
            refine hrest _ d hr (by rw [hstep2]; rfl) (by rw [hstep2]; exact hfm) (by rw [hstep2]; exact hidx) ?_ ?_ hm2 hn2
              (by rw [hstep2]; show s1.stat.Sublist _; rw [hst]; exact List.Sublist.refl _)
              (by rw [hstep2]; show s1.dyn.Sublist _; rw [hdy]; exact List.Sublist.refl _)
              (by rw [hstep2]; cases k <;> first | exact hst | exact hdy)
            · rw [hstep2]; exact hE
            · rw [hstep2]; exact hc1
          · rw [if_neg hin, hcells, hx] at hstep2
            dsimp only at hstep2
            have hnz : ∀ a, (x.1, Metric.new x.2.kind).2.count a = 0 := fun a => Metric.count_new _ a
            have hcs : (s1.apply (.task e)).cells = s1.cells.set c (x.1, Metric.new x.2.kind) := by
              rw [hstep2, hcells]; cases k <;> rfl
            refine hrest _ d hr (by rw [hstep2]; rfl) (by rw [hstep2]; cases k <;> exact hfm)
              (by rw [hstep2]; cases k <;> exact hidx) ?_ ?_ hm2 hn2 ?_ ?_ (by rw [hstep2]; cases k <;> first | exact hst | exact hdy)
            · exact fun c' h => (hE c' h).set hnz _ hcs
            · exact hc1.set hnz _ hcs
            · rw [hstep2]
              cases k
              · show (s1.stat.filter _).Sublist _; rw [hst]; exact List.filter_sublist
              · show s1.stat.Sublist _; rw [hst]; exact List.Sublist.refl _
            · rw [hstep2]
              cases k
              · show s1.dyn.Sublist _; rw [hdy]; exact List.Sublist.refl _
              · show (s1.dyn.filter _).Sublist _; rw [hdy]; exact List.filter_sublist

/-- The task gets back to waiting and leaves the collectors alone. -/
def Home (e : Env) (s : St) : Prop :=
  ∃ t, Runs e s t ∧ t.pc = .idle ∧ t.fm = .ready ∧ t.cells = s.cells ∧ t.stat = s.stat ∧ t.dyn = s.dyn

theorem Home.step {e : Env} {s : St} (h : Home e (s.apply (.task e))) (h1 : ∀ k t d, s.pc ≠ .snap k t d)
    (h2 : ∀ k i c t d, s.pc ≠ .check k i c t d) : Home e s := by
  obtain ⟨t, hr, hi, hf, hc, hs, hd⟩ := h
  have := s.step_same e h1 h2
  exact ⟨t, .step hr, hi, hf, hc.trans this.1, hs.trans this.2.1, hd.trans this.2.2.1⟩

theorem home_of_step {e : Env} {s s' : St} {pc : Pc} (hp : s.pc = pc) (h1 : ∀ k t d, pc ≠ .snap k t d)
    (h2 : ∀ k i c t d, pc ≠ .check k i c t d) (hs : s.stepAt e pc = s') (h : Home e s') : Home e s := by
  refine Home.step ?_ (hp ▸ h1) (hp ▸ h2)
  show Home e (s.step e)
  unfold St.step
  rw [hp, hs]
  exact h

theorem home_idle {e : Env} {s : St} (hp : s.pc = .idle) (hf : s.fm = .ready) : Home e s := ⟨s, .refl s, hp, hf, rfl, rfl, rfl⟩

theorem home_merge {e : Env} (he : e.out = .ok) (s : St) (f : PFile) (u : Nat) (ro : Bool) (old d : Content) (hf : s.fm = .ready) :
    Home e (s.merge f u ro old d) := by
  unfold St.merge
  split
  · refine home_of_step (pc := .writeIdxEmpty) rfl (by simp) (by simp) rfl ?_
    dsimp only [St.stepAt]
    rw [he]
    exact home_idle rfl hf
  · refine home_of_step (pc := .writeSnap f.name u ro old d) rfl (by simp) (by simp) rfl ?_
    dsimp only [St.stepAt]
    rw [he]
    exact home_idle rfl hf

theorem home_writeIdx {e : Env} (he : e.out = .ok) (s : St) (d : Content) (hf : s.fm = .ready) (hp : s.pc = .writeIdx d)
    (hi : s.idx ≠ []) : Home e s := by
  refine home_of_step hp (by simp) (by simp) rfl ?_
  dsimp only [St.stepAt]
  rw [he]
  dsimp only
  rw [List.getLast?_eq_some_getLast hi]
  exact home_merge he _ _ _ _ _ _ hf

theorem home_decide {e : Env} (he : e.out = .ok) (hm : 1 ≤ e.max) (s : St) (d : Content) (hf : s.fm = .ready) (hp : s.pc = .decide d) :
    Home e s := by
  refine home_of_step hp (by simp) (by simp) rfl ?_
  dsimp only [St.stepAt]
  split
  · split
    · rename_i hlen
      have hne : closeLast e s.idx ≠ [] := by
        intro e0
        have := closeLast_length e s.idx
        rw [e0] at this
        simp at this
        rw [← this] at hlen
        simp at hlen; omega
      refine home_of_step (pc := .delOldest d) rfl (by simp) (by simp) rfl ?_
      dsimp only [St.stepAt, St.goto]
      cases hc : closeLast e s.idx with
      | nil => exact absurd hc hne
      | cons f rest =>
        dsimp only
        rw [he]
        exact home_writeIdx he _ d hf rfl (by simp [St.push, St.lose])
    · exact home_writeIdx he _ d hf rfl (by simp [St.goto, St.push])
  · rename_i hm
    refine home_of_step (pc := .readBack d) rfl (by simp) (by simp) rfl ?_
    dsimp only [St.stepAt]
    split
    · rename_i hl
      have hl' : s.idx.getLast? = none := hl
      unfold mustCreate at hm
      rw [hl'] at hm
      exact absurd rfl hm
    · split <;> exact home_merge he _ _ _ _ _ _ hf

theorem home_start {e : Env} (he : e.out = .ok) (hm : 1 ≤ e.max) (s : St) (d : Content) (hf : s.fm ≠ .taken)
    (hp : s.pc = .start (.flush d)) : Home e s := by
  refine home_of_step hp (by simp) (by simp) rfl ?_
  dsimp only [St.stepAt]
  unfold St.start
  split
  · rename_i hr; exact home_decide he hm _ d hr rfl
  · refine home_of_step (pc := .initRead (.flush d)) rfl (by simp) (by simp) rfl ?_
    dsimp only [St.stepAt]
    split
    · exact home_decide he hm _ d rfl rfl
    · refine home_of_step (pc := .initRm (.flush d)) rfl (by simp) (by simp) rfl ?_
      dsimp only [St.stepAt]
      rw [he]
      refine home_of_step (pc := .initMk (.flush d)) rfl (by simp) (by simp) rfl ?_
      dsimp only [St.stepAt]
      rw [he]
      exact home_decide he hm _ d rfl rfl
  · rename_i hr; exact absurd hr hf

/-- C60: after any history that leaves the task waiting with its file system at hand, a flush in which nothing fails
comes to an end, and when it does, no metric of either collector holds anything any more: together with
`C25_conserved`, everything recorded before it is on disk, acknowledged or lost. -/
theorem C60_flush (ops : List Op) (e : Env) (he : e.out = .ok) (hm : 1 ≤ e.max) (hp : (St.init.run ops).pc = .idle)
    (hf : (St.init.run ops).fm ≠ .taken) :
    ∃ n, let t := (St.init.run ops).run (.flush :: List.replicate n (.task e))
      t.pc = .idle ∧ t.pc.delta = [] ∧ (∀ p ∈ t.stat ++ t.dyn, ∀ x, t.cells[p.2]? = some x → ∀ a, x.2.count a = 0) ∧
      (∀ p ∈ (St.init.run ops).stat ++ (St.init.run ops).dyn, ∀ x, t.cells[p.2]? = some x → ∀ a, x.2.count a = 0) := by
  have hmaps := maps_run ops
  have hnames := (run_inv ops).1
  generalize St.init.run ops = s at hp hf hmaps hnames
  have hfl : s.apply .flush = s.goto (.snap false s.stat []) := by
    unfold St.apply; dsimp only; rw [if_pos hp]
  obtain ⟨t1, d1, hr1, hp1, hv1, he1⟩ := visit e false s.stat [] (s.apply .flush) (hmaps.apply _) (hnames.apply _) (by rw [hfl]; rfl)
  have hs1 : t1.stat.Sublist s.stat := by have := hv1.colls.1; rwa [hfl] at this
  have hd1 : t1.dyn.Sublist s.dyn := by have := hv1.colls.2; rwa [hfl] at this
  -- to the second collector
  have hstep : t1.apply (.task e) = t1.goto (.snap true t1.dyn d1) := by
    show t1.step e = _; unfold St.step; rw [hp1]; rfl
  obtain ⟨t2, d2, hr2, hp2, hv2, he2⟩ := visit e true t1.dyn d1 (t1.apply (.task e)) (hv1.maps.apply _) (hv1.names.apply _)
    (by rw [hstep]; rfl)
  have hstep2 : t2.apply (.task e) = t2.goto (.start (.flush d2)) := by
    show t2.step e = _; unfold St.step; rw [hp2]; rfl
  have hfm : t2.fm ≠ .taken := by rw [hv2.fm, hstep]; show t1.fm ≠ _; rw [hv1.fm, hfl]; exact hf
  obtain ⟨t3, hr3, hp3, _, hc3, hs3, hd3⟩ := home_start he hm (t2.apply (.task e)) d2 (by rw [hstep2]; exact hfm) (by rw [hstep2]; rfl)
  have hr : Runs e (s.apply .flush) t3 := (hr1.trans (.step hr2)).trans (.step hr3)
  obtain ⟨n, hn⟩ := hr.run
  have hcells : t3.cells = t2.cells := by rw [hc3, hstep2]; rfl
  have hE1 : ∀ p ∈ s.stat, EmptyAt t2 p.2 := by
    intro p hp'
    refine hv2.empty _ ?_
    rw [hstep]; exact he1 p hp'
  have hE2 : ∀ p ∈ t1.dyn, EmptyAt t2 p.2 := he2
  have hrun : s.run (.flush :: List.replicate n (.task e)) = t3 := hn.symm
  -- a dynamic metric removed in between was empty: nothing of the dynamic collector goes while the static one is visited
  have hdyn : t1.dyn = s.dyn := by
    have := hv1.other
    rw [hfl] at this
    exact this
  refine ⟨n, ?_⟩
  dsimp only
  rw [hrun]
  refine ⟨hp3, by rw [hp3]; rfl, ?_, ?_⟩
  · intro p hp' x hx
    rw [hcells] at hx
    rcases List.mem_append.1 hp' with h' | h'
    · rw [hs3, hstep2] at h'
      have h2 : p ∈ t2.stat := h'
      have h3 := hv2.colls.1.subset h2
      rw [hstep] at h3
      exact hE1 p (hs1.subset h3) x hx
    · rw [hd3, hstep2] at h'
      have h2 : p ∈ t2.dyn := h'
      have h3 := hv2.colls.2.subset h2
      rw [hstep] at h3
      exact hE2 p h3 x hx
  · intro p hp' x hx
    rw [hcells] at hx
    rcases List.mem_append.1 hp' with h' | h'
    · exact hE1 p h' x hx
    · exact hE2 p (hdyn ▸ h') x hx

/-- C60: an upload sends the oldest file, complete, with the period it covers, and waits for the answer. -/
theorem C60_upload (s : St) (e : Env) (he : e.out = .ok) (hsend : e.sendOk = true) (hp : s.pc = .idle) (hf : s.fm = .ready)
    (hi : s.inflight = none) (f : PFile) (rest : List PFile) (hidx : s.idx = f :: rest) (x : File)
    (hx : getFile f.name s.files = some (some x)) :
    ∃ n, let t := s.run (.upload :: List.replicate n (.task e))
      t.pc = .idle ∧ t.inflight = some x.uuid ∧
      t.uploads = s.uploads ++ [⟨x.uuid, x.content, f.start, some (f.stop.getD e.now)⟩] ∧
      t.idx = { f with stop := some (f.stop.getD e.now) } :: rest ∧ t.files = s.files := by
  have hstart : s.apply .upload = s.goto (.start (.upload false)) := by
    unfold St.apply; dsimp only; rw [if_pos ⟨hp, hi⟩]
  have h1 : (s.goto (.start (.upload false))).step e = s.goto (.upHead false) := by
    show (s.goto (.start (.upload false))).start (.upload false) = _
    unfold St.start
    rw [show (s.goto (.start (.upload false))).fm = .ready from hf]
    rfl
  cases hs : f.stop with
  | some v =>
    have h2 : (s.goto (.upHead false)).step e = s.goto (.upRead false) := by
      show (s.goto (.upHead false)).stepAt e (.upHead false) = _
      unfold St.stepAt
      rw [show (s.goto (.upHead false)).idx = f :: rest from hidx]
      dsimp only
      rw [if_neg (by simp), if_neg (by rw [hs]; simp)]
      rfl
    have h3 : (s.goto (.upRead false)).step e =
        { s with uploads := s.uploads ++ [Upload.mk x.uuid x.content f.start f.stop], inflight := some x.uuid }.goto .idle := by
      show (s.goto (.upRead false)).stepAt e (.upRead false) = _
      unfold St.stepAt
      rw [show (s.goto (.upRead false)).idx = f :: rest from hidx]
      dsimp only
      rw [he, show getFile f.name (s.goto (.upRead false)).files = some (some x) from hx]
      dsimp only
      rw [if_pos hsend, ← hidx]
      rfl
    refine ⟨3, ?_⟩
    have : s.run (.upload :: List.replicate 3 (.task e)) =
        { s with uploads := s.uploads ++ [Upload.mk x.uuid x.content f.start f.stop], inflight := some x.uuid }.goto .idle := by
      show (((s.apply .upload).step e).step e).step e = _
      rw [hstart, h1, h2, h3]
    dsimp only
    rw [this]
    refine ⟨rfl, rfl, by rw [hs]; rfl, ?_, rfl⟩
    show s.idx = _
    rw [hidx]
    cases f
    simp_all
  | none =>
    have h2 : (s.goto (.upHead false)).step e = { s with idx := { f with stop := some e.now } :: rest }.goto (.upWriteIdx false) := by
      show (s.goto (.upHead false)).stepAt e (.upHead false) = _
      unfold St.stepAt
      rw [show (s.goto (.upHead false)).idx = f :: rest from hidx]
      dsimp only
      rw [if_neg (by simp), if_pos (by rw [hs]; rfl)]
      rfl
    have h3 : ({ s with idx := { f with stop := some e.now } :: rest }.goto (.upWriteIdx false)).step e =
        { s with idx := { f with stop := some e.now } :: rest, dIndex := .good ({ f with stop := some e.now } :: rest) }.goto (.upRead false) := by
      show ({ s with idx := { f with stop := some e.now } :: rest }.goto (.upWriteIdx false)).stepAt e (.upWriteIdx false) = _
      unfold St.stepAt
      rw [he]
      rfl
    have h4 : ({ s with idx := { f with stop := some e.now } :: rest, dIndex := .good ({ f with stop := some e.now } :: rest) }.goto (.upRead false)).step e =
        { s with idx := { f with stop := some e.now } :: rest, dIndex := .good ({ f with stop := some e.now } :: rest),
                 uploads := s.uploads ++ [Upload.mk x.uuid x.content f.start (some e.now)], inflight := some x.uuid }.goto .idle := by
      show (St.goto _ _).stepAt e (.upRead false) = _
      unfold St.stepAt
      dsimp only [St.goto]
      rw [he, hx]
      dsimp only
      rw [if_pos hsend]
    refine ⟨4, ?_⟩
    have : s.run (.upload :: List.replicate 4 (.task e)) =
        { s with idx := { f with stop := some e.now } :: rest, dIndex := .good ({ f with stop := some e.now } :: rest),
                 uploads := s.uploads ++ [Upload.mk x.uuid x.content f.start (some e.now)], inflight := some x.uuid }.goto .idle := by
      show ((((s.apply .upload).step e).step e).step e).step e = _
      rw [hstart, h1, h2, h3, h4]
    dsimp only
    rw [this]
    exact ⟨rfl, rfl, rfl, rfl, rfl⟩

/-- C60: when the upload is acknowledged, its file and its entry are removed, and only those; when it is refused, both
stay and the next upload sends the file again. -/
theorem C60_response (s : St) (e : Env) (he : e.out = .ok) (hp : s.pc = .idle) (hf : s.fm = .ready)
    (f : PFile) (rest : List PFile) (hidx : s.idx = f :: rest) (hi : s.inflight = some f.name) :
    (∀ t, t = s.run (.response true :: List.replicate 4 (.task e)) →
      t.pc = .start (.upload true) ∧ t.idx = rest ∧ t.dIndex = .good rest ∧ t.files = delFile f.name s.files ∧
      t.acked = (f.name, contentAt f.name s.files) :: s.acked) ∧
    (s.apply (.response false) = { s with inflight := none }) := by
  constructor
  · have h0 : s.apply (.response true) = { s with inflight := none }.goto (.start (.complete f.name)) := by
      unfold St.apply; dsimp only; rw [if_pos hp, hi]; rfl
    have h1 : ({ s with inflight := none }.goto (.start (.complete f.name))).step e = { s with inflight := none }.goto (.complete f.name) := by
      show St.start _ _ = _
      unfold St.start
      dsimp only [St.goto]
      rw [hf]
      rfl
    have h2 : ({ s with inflight := none }.goto (.complete f.name)).step e = { s with inflight := none }.goto (.compDel f.name) := by
      show (St.goto _ _).stepAt e (.complete f.name) = _
      unfold St.stepAt
      dsimp only [St.goto]
      rw [hidx]
      dsimp only
      rw [if_neg (by simp)]
    have h3 : ({ s with inflight := none }.goto (.compDel f.name)).step e =
        { s with inflight := none, files := delFile f.name s.files, idx := rest, acked := (f.name, contentAt f.name s.files) :: s.acked }.goto (.compIdx f.name) := by
      show (St.goto _ _).stepAt e (.compDel f.name) = _
      unfold St.stepAt
      dsimp only [St.goto]
      rw [hidx]
      dsimp only
      rw [he]
    have h4 : ({ s with inflight := none, files := delFile f.name s.files, idx := rest, acked := (f.name, contentAt f.name s.files) :: s.acked }.goto (.compIdx f.name)).step e =
        { s with inflight := none, files := delFile f.name s.files, idx := rest, dIndex := .good rest, acked := (f.name, contentAt f.name s.files) :: s.acked }.goto (.start (.upload true)) := by
      show (St.goto _ _).stepAt e (.compIdx f.name) = _
      unfold St.stepAt
      dsimp only
      rw [he]
      rfl
    have : s.run (.response true :: List.replicate 4 (.task e)) =
        { s with inflight := none, files := delFile f.name s.files, idx := rest, dIndex := .good rest, acked := (f.name, contentAt f.name s.files) :: s.acked }.goto (.start (.upload true)) := by
      show ((((s.apply (.response true)).step e).step e).step e).step e = _
      rw [h0, h1, h2, h3, h4]
    intro t ht
    rw [ht, this]
    exact ⟨rfl, rfl, rfl, rfl, rfl⟩
  · unfold St.apply; dsimp only; rw [if_pos hp, hi]; rfl

/-- Two metrics in both collectors are flushed, the file is sent and acknowledged. -/
def flushOps : List Op := [.get false "s" .counter none, .record 0 (.inc 2), .get true "d" .histogram (some 9), .record 1 (.observe 7)]

example : (St.init.run flushOps).pc = .idle ∧ (St.init.run flushOps).fm ≠ .taken ∧
    (St.init.run flushOps).stat = [("s", 0)] ∧
    allFiles ((St.init.run flushOps).run (.flush :: List.replicate 20 (.task {}))).files =
      [("s", .counter 2), ("d", .hist (.inline [7]))] := by
  decide +kernel

example :
    let s := (St.init.run flushOps).run (.flush :: List.replicate 20 (.task {}))
    s.pc = .idle ∧ s.fm = .ready ∧ s.inflight = none ∧ s.idx = [⟨0, 0, none⟩] ∧ (getFile 0 s.files).isSome ∧
    (s.run (.upload :: List.replicate 4 (.task { now := 9 }))).inflight = some 0 := by
  decide +kernel

end Verif.Stats
