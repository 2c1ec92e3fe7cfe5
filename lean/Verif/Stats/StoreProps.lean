import Verif.Stats.Store

/-! C28, and the arithmetic of snapshots. -/
namespace Verif.Stats

theorem Hist.accept_values (h : Hist) (v : Val) : (h.accept v).values = h.values ++ [v] := by
  cases h with
  | inline vs => unfold Hist.accept; dsimp only; split <;> rfl
  | sketch vs => rfl

theorem Hist.foldl_accept_values (vs : List Val) (h : Hist) : (vs.foldl Hist.accept h).values = h.values ++ vs := by
  induction vs generalizing h with
  | nil => simp
  | cons v vs ih => rw [List.foldl_cons, ih, Hist.accept_values, List.append_assoc]; rfl

theorem Hist.mergeFrom_values (a b : Hist) : (a.mergeFrom b).values = a.values ++ b.values := by
  cases b with
  | inline vs => exact Hist.foldl_accept_values vs a
  | sketch vs => cases a <;> rfl

/-- What a snapshot takes out and what it leaves. -/
theorem Hist.snap_spec (h : Hist) :
    h.snap.2.values = [] ∧ (match h.snap.1 with | none => h.values = [] | some x => x.values = h.values ∧ x.values ≠ []) := by
  cases h with
  | inline vs => cases vs <;> simp [Hist.snap, Hist.values]
  | sketch vs => cases vs <;> simp [Hist.snap, Hist.values]

/-! ### Counting -/

theorem Metric.count_new (k : Kind) (x : Atom) : (Metric.new k).count x = 0 := by
  cases k <;> cases x <;> rfl

theorem Metric.snap_none {m m' : Metric} (h : m.snap = (none, m')) : ∀ x, m.count x = 0 ∧ m'.count x = 0 := by
  intro x
  cases m with
  | counter n =>
    unfold Metric.snap at h; dsimp only at h; split at h
    · cases h; cases x <;> simp_all [Metric.count]
    · cases h
  | hist hh =>
    unfold Metric.snap at h; dsimp only at h
    have hs := hh.snap_spec
    split at h
    · rename_i h' e; cases h; rw [e] at hs
      cases x with
      | none => simp [Metric.count]
      | some v => simp only [Metric.count]; rw [hs.2, hs.1]; simp
    · cases h

theorem Metric.snap_some {m m' y : Metric} (h : m.snap = (some y, m')) : ∀ x, y.count x = m.count x ∧ m'.count x = 0 := by
  intro x
  cases m with
  | counter n =>
    unfold Metric.snap at h; dsimp only at h; split at h
    · cases h
    · cases h; cases x <;> simp [Metric.count]
  | hist hh =>
    unfold Metric.snap at h; dsimp only at h
    have hs := hh.snap_spec
    split at h
    · cases h
    · rename_i z h' e; cases h; rw [e] at hs
      cases x with
      | none => simp [Metric.count]
      | some v => simp only [Metric.count]; rw [hs.2.1, hs.1]; simp

theorem Metric.snap_kind {m m' : Metric} {y : Option Metric} (h : m.snap = (y, m')) :
    m'.kind = m.kind ∧ ∀ z, y = some z → z.kind = m.kind := by
  cases m with
  | counter n => unfold Metric.snap at h; dsimp only at h; split at h <;> cases h <;> simp [Metric.kind]
  | hist hh => unfold Metric.snap at h; dsimp only at h; split at h <;> cases h <;> simp [Metric.kind]

theorem Metric.count_merge {a b r : Metric} (h : a.merge b = some r) (x : Atom) : r.count x = a.count x + b.count x := by
  cases a <;> cases b <;> simp only [Metric.merge, Option.some.injEq, reduceCtorEq] at h
  · subst h; cases x <;> simp [Metric.count]
  · subst h
    cases x with
    | none => rfl
    | some v => simp [Metric.count, Hist.mergeFrom_values]

theorem Metric.merge_none {a b : Metric} (h : a.merge b = none) : a.kind ≠ b.kind := by
  cases a <;> cases b <;> simp_all [Metric.merge, Metric.kind]

theorem cnt_append (id : Id) (x : Atom) (a b : Content) : cnt id x (a ++ b) = cnt id x a + cnt id x b := by
  induction a with
  | nil => simp [cnt]
  | cons e a ih => simp only [List.cons_append, cnt, ih]; omega

theorem cnt_replace {id : Id} {m old : Metric} {c : Content} (h : findMetric id c = some old) (i : Id) (x : Atom) :
    cnt i x (replaceMetric id m c) + cnt i x [(id, old)] = cnt i x c + cnt i x [(id, m)] := by
  induction c with
  | nil => cases h
  | cons e c ih =>
    unfold findMetric at h
    unfold replaceMetric
    by_cases he : e.1 = id
    · rw [if_pos he] at h ⊢
      cases h
      simp only [cnt, he]; omega
    · rw [if_neg he] at h ⊢
      have := ih h
      simp only [cnt] at this ⊢; omega

theorem cnt_addMetric (id : Id) (m : Metric) (c : Content) (i : Id) (x : Atom) :
    cnt i x (addMetric id m c).1 + cnt i x (addMetric id m c).2 = cnt i x c + cnt i x [(id, m)] := by
  unfold addMetric
  cases h : findMetric id c with
  | none => simp [cnt_append, cnt]
  | some old => exact cnt_replace h i x

theorem cnt_mergeAll (ex d : Content) (i : Id) (x : Atom) :
    cnt i x (mergeAll ex d).1 + cnt i x (mergeAll ex d).2 = cnt i x ex + cnt i x d := by
  induction d generalizing ex with
  | nil => simp [mergeAll, cnt]
  | cons e d ih =>
    obtain ⟨id, m⟩ := e
    unfold mergeAll
    cases h : findMetric id ex with
    | none =>
      have := ih (ex ++ [(id, m)])
      simp only [cnt_append, cnt] at this ⊢; omega
    | some m0 =>
      cases hm : m0.merge m with
      | none =>
        have := ih ex
        simp only [hm, cnt] at this ⊢; omega
      | some r =>
        have h1 := ih (replaceMetric id r ex)
        have h2 := cnt_replace (m := r) h i x
        have h3 := Metric.count_merge hm x
        simp only [hm, cnt] at h1 h2 ⊢
        by_cases hi : id = i
        · simp only [if_pos hi] at h2 ⊢; omega
        · simp only [if_neg hi] at h2 ⊢; omega

theorem mergeAll_empty {ex d : Content} (h : (mergeAll ex d).1 = []) : ex = [] ∧ d = [] := by
  induction d generalizing ex with
  | nil => exact ⟨h, rfl⟩
  | cons e d ih =>
    obtain ⟨id, m⟩ := e
    unfold mergeAll at h
    cases hf : findMetric id ex with
    | none =>
      simp only [hf] at h
      have := ih h
      simp at this
    | some m0 =>
      have hne : ∀ r, replaceMetric id r ex ≠ [] := by
        intro r; cases ex with
        | nil => cases hf
        | cons a l => unfold replaceMetric; split <;> simp
      have hne' : ex ≠ [] := by intro e; subst e; cases hf
      simp only [hf] at h
      cases hm : m0.merge m with
      | none => simp only [hm] at h; exact absurd (ih h).1 hne'
      | some r => simp only [hm] at h; exact absurd (ih h).1 (hne r)

/-- Writing a metric and reading it back changes nothing. -/
theorem fromProto_toProto (m : Metric) : Metric.fromProto m.toProto = some m := by
  cases m with
  | counter n => rfl
  | hist h => cases h <;> rfl

/-! ### C28 -/

/-- How a histogram comes about: it starts empty, observations are recorded, another histogram is merged into it, it is
written to disk and read back, it is what a snapshot took out of another one, or what a snapshot left behind. -/
inductive Made : List Val → Hist → Prop
  | empty : Made [] (.inline [])
  | observe {vs h} (v : Val) : Made vs h → Made (v :: vs) (h.accept v)
  | merge {as bs a b} : Made as a → Made bs b → Made (as ++ bs) (a.mergeFrom b)
  | stored {vs h h'} : Made vs h → Metric.fromProto (Metric.toProto (.hist h)) = some (.hist h') → Made vs h'
  | taken {vs h h'} : Made vs h → h.snap.1 = some h' → Made vs h'
  | left {vs h} : Made vs h → Made [] h.snap.2

/-- However a histogram came about — observed, snapshotted, stored, merged, in whichever representation — it holds every
observation that went into it, and each exactly as often as it was made. -/
theorem C28_every_observation {vs : List Val} {h : Hist} (m : Made vs h) (v : Val) : h.values.count v = vs.count v := by
  induction m with
  | empty => rfl
  | observe w _ ih => simp only [Hist.accept_values, List.count_append, ih, List.count_cons, List.count_nil]; omega
  | merge _ _ ih1 ih2 => rw [Hist.mergeFrom_values, List.count_append, List.count_append, ih1, ih2]
  | stored _ e ih => rw [fromProto_toProto] at e; cases e; exact ih
  | @taken _ h _ _ e ih => have := h.snap_spec; rw [e] at this; rw [this.2.1]; exact ih
  | @left _ h _ _ => rw [h.snap_spec.1]

/-- An interleaving of observations (`some`) and snapshots (`none`) of one histogram: the snapshots taken, and what is
left in the end. -/
def observeAndSnap : Hist → List (Option Val) → List Hist × Hist
  | h, [] => ([], h)
  | h, some v :: ops => observeAndSnap (h.accept v) ops
  | h, none :: ops => match h.snap with
    | (none, h') => observeAndSnap h' ops
    | (some x, h') => (x :: (observeAndSnap h' ops).1, (observeAndSnap h' ops).2)

/-- However the observations of a histogram are spread over snapshots, merging the snapshots, in order, into any
histogram (a new one, or one read from disk), and what is left after them, gives every observation once, in order. -/
theorem C28_split (ops : List (Option Val)) (h base : Hist) :
    (((observeAndSnap h ops).1.foldl Hist.mergeFrom base).mergeFrom (observeAndSnap h ops).2).values =
      base.values ++ h.values ++ ops.filterMap id := by
  induction ops generalizing h base with
  | nil => simp [observeAndSnap, Hist.mergeFrom_values]
  | cons o ops ih =>
    cases o with
    | some v => simp only [observeAndSnap, ih, Hist.accept_values, List.filterMap_cons, id]; simp
    | none =>
      have hs := h.snap_spec
      unfold observeAndSnap
      cases e : h.snap with
      | mk y h' =>
        rw [e] at hs
        cases y with
        | none => simp only [ih, hs.1, List.filterMap_cons, id]; simp at hs; simp [hs.2]
        | some x =>
          simp only at hs
          simp only [List.foldl_cons, ih, Hist.mergeFrom_values, hs.1, hs.2.1, List.filterMap_cons, id]; simp

/-- A snapshot is taken exactly when there is something to take, and leaves nothing behind. -/
theorem C28_snapshot (h : Hist) : (h.snap.1 = none ↔ h.values = []) ∧ h.snap.2.values = [] := by
  have hs := h.snap_spec
  refine ⟨?_, hs.1⟩
  cases e : h.snap.1 with
  | none => rw [e] at hs; simp [hs.2]
  | some x => rw [e] at hs; simp only [reduceCtorEq, false_iff]; rw [← hs.2.1]; exact hs.2.2

/-- Observations alone keep at most five values inline: beyond that the histogram is a sketch. -/
theorem C28_inline_bound (vs : List Val) :
    vs.foldl Hist.accept (.inline []) = if vs.length ≤ 5 then .inline vs else .sketch vs := by
  have key : ∀ (vs ws : List Val), vs.foldl Hist.accept (.sketch ws) = .sketch (ws ++ vs) := by
    intro vs
    induction vs with
    | nil => simp
    | cons v vs ih => intro ws; rw [List.foldl_cons]; show List.foldl _ (Hist.sketch (ws ++ [v])) vs = _; rw [ih]; simp
  have key2 : ∀ (vs ws : List Val), ws.length ≤ 5 →
      vs.foldl Hist.accept (.inline ws) = if (ws ++ vs).length ≤ 5 then .inline (ws ++ vs) else .sketch (ws ++ vs) := by
    intro vs
    induction vs with
    | nil => intro ws hw; simp [hw]
    | cons v vs ih =>
      intro ws hw
      rw [List.foldl_cons]
      by_cases h5 : ws.length ≥ maxInline
      · have e : Hist.accept (.inline ws) v = .sketch (ws ++ [v]) := by unfold Hist.accept; dsimp only; rw [if_pos h5]
        rw [e, key, if_neg]
        · simp
        · simp [maxInline] at h5 ⊢; omega
      · have e : Hist.accept (.inline ws) v = .inline (ws ++ [v]) := by unfold Hist.accept; dsimp only; rw [if_neg h5]
        rw [e, ih]
        · simp
        · simp [maxInline] at h5 ⊢; omega
  simpa using key2 vs [] (by simp)

/-- Two observations inline, and six that became a sketch, merged; observations spread over snapshots. -/
example : Made [2, 1, 8, 7, 6, 5, 4, 3] ((Hist.inline [1, 2]).mergeFrom (.sketch [3, 4, 5, 6, 7, 8])) ∧
    ((observeAndSnap (.inline []) [some 1, some 2, none, some 3, some 4, none, none, some 5]).1 = [.inline [1, 2], .inline [3, 4]]) := by
  refine ⟨?_, by decide⟩
  have a : Made [2, 1] (.inline [1, 2]) := .observe 2 (.observe 1 .empty)
  have b : Made [8, 7, 6, 5, 4, 3] (.sketch [3, 4, 5, 6, 7, 8]) :=
    .observe 8 (.observe 7 (.observe 6 (.observe 5 (.observe 4 (.observe 3 .empty)))))
  exact .merge a b

end Verif.Stats
