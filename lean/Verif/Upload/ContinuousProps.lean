import Verif.Upload.Continuous
import Mathlib.Data.List.Induction

/-
C13: continuous uploads acknowledge what was uploaded; C12 for the continuous uploader.
-/
namespace Verif.Upload

/-- `logs` are exactly the logs numbered `a, a+1, …` of the buffer. -/
def Segment (written : List (List Nat)) (a : Nat) (logs : List NLog) : Prop :=
  logs.map (·.1) = List.range' a logs.length ∧ ∀ x ∈ logs, written[x.1]? = some x.2

/-- Log number `i` is in a finished upload whose result satisfies `p`. -/
def Uploaded (p : UpResult → Prop) (s : CU) (i : Nat) : Prop :=
  ∃ u ∈ s.finished, p u.2 ∧ ∃ d, (i, d) ∈ u.1 ∧ s.written[i]? = some d

/-- Well-formed states, whatever happens. -/
structure CU.Wf (s : CU) : Prop where
  pos_le : s.acked ≤ s.pos
  le : s.pos ≤ s.written.length
  batch : s.phase = .collecting → s.batch.length ≤ s.pos ∧ Segment s.written (s.pos - s.batch.length) s.batch
  armed : s.phase = .collecting → (s.armed = true ↔ s.batch ≠ [])
  up : ∀ logs, s.phase = .uploading logs → s.batch = [] ∧ s.armed = false ∧ logs ≠ [] ∧ s.acked + logs.length ≤ s.pos ∧
    ∃ a, Segment s.written a logs
  ack : ∀ k, s.phase = .acking k → s.batch = [] ∧ s.armed = false ∧ s.acked + k ≤ s.pos
  coll : s.phase = .collecting → s.acked + s.batch.length ≤ s.pos
  fin : ∀ u ∈ s.finished, u.1 ≠ [] ∧ ∃ a, Segment s.written a u.1

theorem seg_write {w : List (List Nat)} {a : Nat} {l : List NLog} (h : Segment w a l) (d : List Nat) :
    Segment (w ++ [d]) a l := by
  refine ⟨h.1, fun x hx => ?_⟩
  have := h.2 x hx
  rw [List.getElem?_append_left]
  · exact this
  · exact (List.getElem?_eq_some_iff.mp this).1

theorem seg_snoc {w : List (List Nat)} {a : Nat} {l : List NLog} {d : List Nat} (h : Segment w a l)
    (hd : w[a + l.length]? = some d) : Segment w a (l ++ [(a + l.length, d)]) := by
  refine ⟨?_, ?_⟩
  · rw [List.map_append, h.1, List.length_append, List.length_singleton, List.range'_concat]
    simp
  · intro x hx
    rw [List.mem_append] at hx
    rcases hx with hx | hx
    · exact h.2 x hx
    · simp only [List.mem_singleton] at hx
      rw [hx]; exact hd

theorem seg_nil (w : List (List Nat)) (a : Nat) : Segment w a [] := ⟨rfl, by simp⟩

theorem seg_mem {w : List (List Nat)} {a : Nat} {l : List NLog} (h : Segment w a l) {i : Nat} (h1 : a ≤ i)
    (h2 : i < a + l.length) : ∃ d, (i, d) ∈ l ∧ w[i]? = some d := by
  have : i ∈ l.map (·.1) := by
    rw [h.1, List.mem_range'_1]; omega
  obtain ⟨x, hx, rfl⟩ := List.mem_map.mp this
  exact ⟨x.2, hx, h.2 x hx⟩

theorem CU.limit_ne {s : CU} {l : Limits} (h : s.limit l = true) : s.batch ≠ [] := by
  intro hb
  simp [CU.limit, hb] at h

/-- Every state before the check of the limits in a collecting phase leads to a well-formed state. -/
theorem CU.Wf.check {s : CU} (h1 : s.phase = .collecting) (hpos : s.acked ≤ s.pos) (hle : s.pos ≤ s.written.length)
    (hb : s.batch.length ≤ s.pos ∧ Segment s.written (s.pos - s.batch.length) s.batch)
    (hc : s.acked + s.batch.length ≤ s.pos)
    (hfin : ∀ u ∈ s.finished, u.1 ≠ [] ∧ ∃ a, Segment s.written a u.1)
    (harm : s.batch = [] → s.armed = false) (l : Limits) : (s.check l).Wf := by
  unfold CU.check
  by_cases hl : s.limit l = true
  · rw [if_pos hl]
    have hne := CU.limit_ne hl
    exact {
      pos_le := hpos
      le := hle
      batch := fun h => nomatch h
      armed := fun h => nomatch h
      up := fun logs hh => by
        have : s.batch = logs := by injection hh
        subst this
        exact ⟨rfl, rfl, hne, hc, _, hb.2⟩
      ack := fun k hh => nomatch hh
      coll := fun h => nomatch h
      fin := hfin }
  · rw [if_neg hl]
    unfold CU.arm
    cases hbe : s.batch with
    | nil =>
      rw [List.isEmpty_nil, if_pos rfl]
      exact {
        pos_le := hpos
        le := hle
        batch := fun _ => hb
        armed := fun _ => by simp [hbe, harm hbe]
        up := fun logs hh => by rw [h1] at hh; cases hh
        ack := fun k hh => by rw [h1] at hh; cases hh
        coll := fun _ => hc
        fin := hfin }
    | cons x y =>
      rw [List.isEmpty_cons, if_neg (by simp)]
      exact {
        pos_le := hpos
        le := hle
        batch := fun _ => by rw [hbe] at hb; exact hb
        armed := fun _ => by simp
        up := fun logs hh => by simp only [h1] at hh; cases hh
        ack := fun k hh => by simp only [h1] at hh; cases hh
        coll := fun _ => by rw [hbe] at hc; exact hc
        fin := hfin }

theorem CU.Wf.read {s : CU} (h : s.Wf) (hp : s.phase = .collecting) {d : List Nat} (hd : s.written[s.pos]? = some d)
    (l : Limits) : (CU.check { s with batch := s.batch ++ [(s.pos, d)], pos := s.pos + 1 } l).Wf := by
  have hb := h.batch hp
  have hlt : s.pos < s.written.length := (List.getElem?_eq_some_iff.mp hd).1
  apply CU.Wf.check
  · exact hp
  · have := h.pos_le; show s.acked ≤ s.pos + 1; omega
  · show s.pos + 1 ≤ s.written.length; omega
  · simp only [List.length_append, List.length_singleton]
    refine ⟨by omega, ?_⟩
    have e : s.pos + 1 - (s.batch.length + 1) = s.pos - s.batch.length := by omega
    rw [e]
    have := seg_snoc (d := d) hb.2 (by rw [Nat.sub_add_cancel hb.1]; exact hd)
    rwa [Nat.sub_add_cancel hb.1] at this
  · have := h.coll hp
    simp only [List.length_append, List.length_singleton]; omega
  · exact h.fin
  · intro hbe; simp at hbe

theorem CU.Wf.flush {s : CU} (h : s.Wf) (hp : s.phase = .collecting) (ha : s.armed = true) : s.flush.Wf := {
  pos_le := h.pos_le
  le := h.le
  batch := fun h => nomatch h
  armed := fun h => nomatch h
  up := fun logs hh => by
    have : s.batch = logs := by injection hh
    subst this
    exact ⟨rfl, rfl, (h.armed hp).mp ha, h.coll hp, _, (h.batch hp).2⟩
  ack := fun k hh => nomatch hh
  coll := fun h => nomatch h
  fin := h.fin }

theorem CU.Wf.stopped {s : CU} (h : s.Wf) : CU.Wf { s with phase := .stopped } := {
  pos_le := h.pos_le, le := h.le, batch := (fun h => nomatch h), armed := fun h => nomatch h
  up := (fun _ h => nomatch h), ack := (fun _ h => nomatch h), coll := (fun h => nomatch h), fin := h.fin }

theorem CU.Wf.step {s : CU} (h : s.Wf) (e : CEv) : (s.step e).Wf := by
  cases e with
  | write d =>
    exact {
      pos_le := h.pos_le
      le := by have := h.le; simp only [CU.step, List.length_append, List.length_singleton]; omega
      batch := fun hp => ⟨(h.batch hp).1, seg_write (h.batch hp).2 d⟩
      armed := h.armed
      up := fun logs hp => by
        obtain ⟨a, b, c, d', x, hx⟩ := h.up logs hp
        exact ⟨a, b, c, d', x, seg_write hx d⟩
      ack := h.ack
      coll := h.coll
      fin := fun u hu => ⟨(h.fin u hu).1, by obtain ⟨a, ha⟩ := (h.fin u hu).2; exact ⟨a, seg_write ha d⟩⟩ }
  | start =>
    cases hp : s.phase with
    | stopped =>
      simp only [CU.step, hp]
      exact {
        pos_le := Nat.le_refl _
        le := Nat.le_trans h.pos_le h.le
        batch := fun _ => ⟨Nat.zero_le _, seg_nil _ _⟩
        armed := fun _ => by simp
        up := fun _ h => nomatch h
        ack := fun _ h => nomatch h
        coll := fun _ => Nat.le_refl _
        fin := h.fin }
    | collecting => simp only [CU.step, hp]; exact h
    | uploading l => simp only [CU.step, hp]; exact h
    | acking k => simp only [CU.step, hp]; exact h
  | read l =>
    cases hp : s.phase with
    | collecting =>
      cases hd : s.written[s.pos]? with
      | none => simp only [CU.step, hp, hd]; exact h
      | some d =>
        simp only [CU.step, hp, hd]
        have := h.read hp hd l
        rwa [hp] at this
    | stopped => simp only [CU.step, hp]; exact h
    | uploading l => simp only [CU.step, hp]; exact h
    | acking k => simp only [CU.step, hp]; exact h
  | deadline =>
    cases hp : s.phase with
    | collecting =>
      simp only [CU.step, hp]
      by_cases ha : s.armed = true
      · rw [if_pos ha]; exact h.flush hp ha
      · rw [if_neg ha]; exact h
    | stopped => simp only [CU.step, hp]; exact h
    | uploading l => simp only [CU.step, hp]; exact h
    | acking k => simp only [CU.step, hp]; exact h
  | flag l =>
    cases hp : s.phase with
    | collecting =>
      simp only [CU.step, hp]
      exact CU.Wf.check hp h.pos_le h.le (h.batch hp) (h.coll hp) h.fin (fun hb => by
        have := h.armed hp
        simpa [hb] using this) l
    | stopped => simp only [CU.step, hp]; exact h
    | uploading l => simp only [CU.step, hp]; exact h
    | acking k => simp only [CU.step, hp]; exact h
  | result r =>
    cases hp : s.phase with
    | uploading logs =>
      simp only [CU.step, hp]
      obtain ⟨a, b, c, d, hx⟩ := h.up logs hp
      exact {
        pos_le := h.pos_le
        le := h.le
        batch := fun h => nomatch h
        armed := fun h => nomatch h
        up := fun _ h => nomatch h
        ack := fun k hk => by
          have : logs.length = k := by injection hk
          subst this
          exact ⟨a, b, d⟩
        coll := fun h => nomatch h
        fin := fun u hu => by
          rw [List.mem_append] at hu
          rcases hu with hu | hu
          · exact h.fin u hu
          · simp only [List.mem_singleton] at hu
            rw [hu]; exact ⟨c, hx⟩ }
    | collecting => simp only [CU.step, hp]; exact h
    | stopped => simp only [CU.step, hp]; exact h
    | acking k => simp only [CU.step, hp]; exact h
  | advance =>
    cases hp : s.phase with
    | acking k =>
      obtain ⟨a, b, c⟩ := h.ack k hp
      cases k with
      | zero =>
        simp only [CU.step, hp]
        exact {
          pos_le := h.pos_le
          le := h.le
          batch := fun _ => by simp only [a]; exact ⟨Nat.zero_le _, seg_nil _ _⟩
          armed := fun _ => by simp [a, b]
          up := fun _ h => nomatch h
          ack := fun _ h => nomatch h
          coll := fun _ => by simp only [a]; exact c
          fin := h.fin }
      | succ k =>
        simp only [CU.step, hp]
        exact {
          pos_le := by show s.acked + 1 ≤ s.pos; omega
          le := h.le
          batch := fun _ => by simp only [a]; exact ⟨Nat.zero_le _, seg_nil _ _⟩
          armed := fun _ => by simp [a, b]
          up := fun _ hh => by simp only at hh; split at hh <;> cases hh
          ack := fun j hh => by
            simp only at hh
            split at hh
            · cases hh
            · have : k = j := by injection hh
              subst this
              exact ⟨a, b, by show s.acked + 1 + k ≤ s.pos; omega⟩
          coll := fun _ => by simp only [a]; show s.acked + 1 + 0 ≤ s.pos; omega
          fin := h.fin }
    | collecting => simp only [CU.step, hp]; exact h
    | stopped => simp only [CU.step, hp]; exact h
    | uploading l => simp only [CU.step, hp]; exact h
  | shut => exact ⟨h.pos_le, h.le, h.batch, h.armed, h.up, h.ack, h.coll, h.fin⟩
  | stop =>
    cases hp : s.phase with
    | collecting =>
      simp only [CU.step, hp]
      split
      · exact h.stopped
      · exact h
    | stopped => simp only [CU.step, hp]; exact h
    | uploading l => simp only [CU.step, hp]; exact h
    | acking k => simp only [CU.step, hp]; exact h
  | abortStop =>
    cases hp : s.phase with
    | uploading l =>
      simp only [CU.step, hp]
      split
      · exact h.stopped
      · exact h
    | stopped => simp only [CU.step, hp]; exact h
    | collecting => simp only [CU.step, hp]; exact h
    | acking k => simp only [CU.step, hp]; exact h
  | abortGo =>
    cases hp : s.phase with
    | uploading l =>
      simp only [CU.step, hp]
      split
      · obtain ⟨a, b, c, d, hx⟩ := h.up l hp
        exact {
          pos_le := h.pos_le
          le := h.le
          batch := fun _ => by simp only [a]; exact ⟨Nat.zero_le _, seg_nil _ _⟩
          armed := fun _ => by simp [a, b]
          up := fun _ h => nomatch h
          ack := fun _ h => nomatch h
          coll := fun _ => by simp only [a, List.length_nil]; exact h.pos_le
          fin := h.fin }
      · exact h
    | stopped => simp only [CU.step, hp]; exact h
    | collecting => simp only [CU.step, hp]; exact h
    | acking k => simp only [CU.step, hp]; exact h
  | kill => exact h.stopped

theorem CU.wf_init : CU.init.Wf where
  pos_le := Nat.le_refl _
  le := Nat.le_refl _
  batch := fun h => nomatch h
  armed := fun h => nomatch h
  up := fun _ h => nomatch h
  ack := fun _ h => nomatch h
  coll := fun h => nomatch h
  fin := by simp [CU.init]

theorem CU.wf_run (es : List CEv) : ∀ s : CU, s.Wf → (s.run es).Wf := by
  induction es with
  | nil => intro s h; exact h
  | cons e es ih => intro s h; exact ih _ (h.step e)

/-! ### The acknowledged logs -/

/-- The positions of the current batch or upload start at the first log not acknowledged, and what is being
acknowledged was uploaded. -/
structure CU.Aligned (p : UpResult → Prop) (s : CU) : Prop where
  coll : s.phase = .collecting → s.pos = s.acked + s.batch.length
  up : ∀ logs, s.phase = .uploading logs → s.pos = s.acked + logs.length ∧ Segment s.written s.acked logs
  ack : ∀ k, s.phase = .acking k → s.pos = s.acked + k ∧ ∀ i, s.acked ≤ i → i < s.acked + k → Uploaded p s i
  done : ∀ i, i < s.acked → Uploaded p s i

theorem Uploaded.write {p : UpResult → Prop} {s : CU} {i : Nat} (h : Uploaded p s i) (d : List Nat) :
    Uploaded p { s with written := s.written ++ [d] } i := by
  obtain ⟨u, hu, hp, x, hx, hw⟩ := h
  refine ⟨u, hu, hp, x, hx, ?_⟩
  show (s.written ++ [d])[i]? = some x
  rw [List.getElem?_append_left]
  · exact hw
  · exact (List.getElem?_eq_some_iff.mp hw).1

/-- What the property allows of an event: never `abortGo`, only results satisfying `p`. -/
def CEv.okFor (p : UpResult → Prop) : CEv → Prop
  | .abortGo => False
  | .result r => p r
  | _ => True

theorem CU.Aligned.check {p : UpResult → Prop} {s : CU} (hp : s.phase = .collecting)
    (hc : s.pos = s.acked + s.batch.length) (hseg : Segment s.written s.acked s.batch)
    (hd : ∀ i, i < s.acked → Uploaded p s i) (l : Limits) :
    (s.check l).Aligned p := by
  unfold CU.check
  split
  · exact {
      coll := fun h => nomatch h
      up := fun logs hh => by
        have : s.batch = logs := by injection hh
        subst this
        exact ⟨hc, hseg⟩
      ack := fun _ h => nomatch h
      done := hd }
  · unfold CU.arm
    split
    · exact ⟨fun _ => hc, (fun _ hh => by rw [hp] at hh; cases hh), (fun _ hh => by rw [hp] at hh; cases hh), hd⟩
    · exact ⟨fun _ => hc, (fun _ hh => by simp only [hp] at hh; cases hh), (fun _ hh => by simp only [hp] at hh; cases hh), hd⟩

theorem CU.Aligned.stopped {p : UpResult → Prop} {s : CU} (h : s.Aligned p) : CU.Aligned p { s with phase := .stopped } :=
  ⟨(fun h => nomatch h), (fun _ h => nomatch h), (fun _ h => nomatch h), h.done⟩

theorem CU.Aligned.step {p : UpResult → Prop} {s : CU} (hw : s.Wf) (h : s.Aligned p) (e : CEv) (he : e.okFor p) :
    (s.step e).Aligned p := by
  have hseg : s.phase = .collecting → Segment s.written s.acked s.batch := by
    intro hp
    have h1 := h.coll hp
    have h2 := (hw.batch hp).2
    have : s.pos - s.batch.length = s.acked := by omega
    rwa [this] at h2
  cases e with
  | write d =>
    exact {
      coll := h.coll
      up := fun logs hp => ⟨(h.up logs hp).1, seg_write (h.up logs hp).2 d⟩
      ack := fun k hp => ⟨(h.ack k hp).1, fun i h1 h2 => ((h.ack k hp).2 i h1 h2).write d⟩
      done := fun i hi => (h.done i hi).write d }
  | start =>
    cases hp : s.phase with
    | stopped =>
      simp only [CU.step, hp]
      exact ⟨fun _ => rfl, (fun _ h => nomatch h), (fun _ h => nomatch h), h.done⟩
    | collecting => simp only [CU.step, hp]; exact h
    | uploading l => simp only [CU.step, hp]; exact h
    | acking k => simp only [CU.step, hp]; exact h
  | read l =>
    cases hp : s.phase with
    | collecting =>
      cases hd : s.written[s.pos]? with
      | none => simp only [CU.step, hp, hd]; exact h
      | some d =>
        simp only [CU.step, hp, hd]
        have hc := h.coll hp
        apply CU.Aligned.check
        · rfl
        · simp only [List.length_append, List.length_singleton]; omega
        · have := seg_snoc (d := d) (hseg hp) (by rw [← hc]; exact hd)
          rwa [← hc] at this
        · exact h.done
    | stopped => simp only [CU.step, hp]; exact h
    | uploading l => simp only [CU.step, hp]; exact h
    | acking k => simp only [CU.step, hp]; exact h
  | deadline =>
    cases hp : s.phase with
    | collecting =>
      simp only [CU.step, hp]
      split
      · exact {
          coll := fun h => nomatch h
          up := fun logs hh => by
            have : s.batch = logs := by injection hh
            subst this
            exact ⟨h.coll hp, hseg hp⟩
          ack := fun _ h => nomatch h
          done := h.done }
      · exact h
    | stopped => simp only [CU.step, hp]; exact h
    | uploading l => simp only [CU.step, hp]; exact h
    | acking k => simp only [CU.step, hp]; exact h
  | flag l =>
    cases hp : s.phase with
    | collecting =>
      simp only [CU.step, hp]
      exact CU.Aligned.check hp (h.coll hp) (hseg hp) h.done l
    | stopped => simp only [CU.step, hp]; exact h
    | uploading l => simp only [CU.step, hp]; exact h
    | acking k => simp only [CU.step, hp]; exact h
  | result r =>
    have hmono : ∀ logs i, Uploaded p s i →
        Uploaded p { s with phase := .acking logs.length, finished := s.finished ++ [(logs, r)] } i := by
      rintro logs i ⟨u, hu, hp, x⟩
      exact ⟨u, List.mem_append_left _ hu, hp, x⟩
    cases hp : s.phase with
    | uploading logs =>
      simp only [CU.step, hp]
      exact {
        coll := fun h => nomatch h
        up := fun _ h => nomatch h
        ack := fun k hk => by
          have : logs.length = k := by injection hk
          subst this
          refine ⟨(h.up logs hp).1, fun i h1 h2 => ?_⟩
          obtain ⟨d, hd, hx⟩ := seg_mem (h.up logs hp).2 h1 h2
          exact ⟨(logs, r), by simp, he, d, hd, hx⟩
        done := fun i hi => hmono logs i (h.done i hi) }
    | collecting => simp only [CU.step, hp]; exact h
    | stopped => simp only [CU.step, hp]; exact h
    | acking k => simp only [CU.step, hp]; exact h
  | advance =>
    cases hp : s.phase with
    | acking k =>
      obtain ⟨a, b, c⟩ := hw.ack k hp
      obtain ⟨h1, h2⟩ := h.ack k hp
      cases k with
      | zero =>
        simp only [CU.step, hp]
        exact ⟨fun _ => by simp only [a]; exact h1, (fun _ h => nomatch h), (fun _ h => nomatch h), h.done⟩
      | succ k =>
        simp only [CU.step, hp]
        have hdone : ∀ i, i < s.acked + 1 → Uploaded p s i := by
          intro i hi
          by_cases hlt : i < s.acked
          · exact h.done i hlt
          · exact h2 i (by omega) (by omega)
        exact {
          coll := fun hh => by
            simp only at hh
            split at hh
            · rename_i hk
              simp only [a, List.length_nil]; omega
            · cases hh
          up := fun _ hh => by simp only at hh; split at hh <;> cases hh
          ack := fun j hh => by
            simp only at hh
            split at hh
            · cases hh
            · have : k = j := by injection hh
              subst this
              exact ⟨by simp only; omega, fun i i1 i2 => h2 i (by simp only at i1; omega) (by simp only at i2; omega)⟩
          done := hdone }
    | collecting => simp only [CU.step, hp]; exact h
    | stopped => simp only [CU.step, hp]; exact h
    | uploading l => simp only [CU.step, hp]; exact h
  | shut => exact ⟨h.coll, h.up, h.ack, h.done⟩
  | stop =>
    cases hp : s.phase with
    | collecting =>
      simp only [CU.step, hp]
      split
      · exact h.stopped
      · exact h
    | stopped => simp only [CU.step, hp]; exact h
    | uploading l => simp only [CU.step, hp]; exact h
    | acking k => simp only [CU.step, hp]; exact h
  | abortStop =>
    cases hp : s.phase with
    | uploading l =>
      simp only [CU.step, hp]
      split
      · exact h.stopped
      · exact h
    | stopped => simp only [CU.step, hp]; exact h
    | collecting => simp only [CU.step, hp]; exact h
    | acking k => simp only [CU.step, hp]; exact h
  | abortGo => exact he.elim
  | kill => exact h.stopped

theorem aligned_run {p : UpResult → Prop} (es : List CEv) : ∀ s : CU, s.Wf → s.Aligned p → (∀ e ∈ es, e.okFor p) →
    (s.run es).Aligned p := by
  induction es with
  | nil => intro s _ h _; exact h
  | cons e es ih =>
    intro s hw h he
    exact ih _ (hw.step e) (h.step hw e (he e List.mem_cons_self)) fun x hx => he x (List.mem_cons_of_mem _ hx)

theorem aligned_init (p : UpResult → Prop) : CU.init.Aligned p :=
  ⟨(fun h => nomatch h), (fun _ h => nomatch h), (fun _ h => nomatch h), fun i hi => by simp [CU.init] at hi⟩

/-- The statement of C13 about acknowledged logs: after any run, every acknowledged log is in a finished
upload that was not cancelled. -/
def C13_statement : Prop :=
  ∀ es : List CEv, ∀ i, i < (CU.init.run es).acked → Uploaded (· ≠ .canceled) (CU.init.run es) i

/-- C13, without the two races at shutdown: as long as no upload is cancelled and the uploader stops when it
abandons an upload, every acknowledged log is in a finished upload.
Missing: uploads cancelled by a shutdown (`C13_canceled_violated`), and an uploader that goes on after
abandoning an upload (`C13_abort_violated`). -/
theorem C13_acknowledged_partial (es : List CEv) (he : ∀ e ∈ es, e.okFor (· ≠ .canceled)) :
    ∀ i, i < (CU.init.run es).acked → Uploaded (· ≠ .canceled) (CU.init.run es) i :=
  (aligned_run es _ CU.wf_init (aligned_init _) he).done

/-- C13, with cancelled uploads but without the race after an abandoned upload: every acknowledged log was given
to an upload that returned some result. -/
theorem C13_returned_partial (es : List CEv) (he : ∀ e ∈ es, e ≠ .abortGo) :
    ∀ i, i < (CU.init.run es).acked → Uploaded (fun _ => True) (CU.init.run es) i := by
  apply (aligned_run es _ CU.wf_init (aligned_init _) ?_).done
  intro e h
  have := he e h
  cases e <;> simp_all [CEv.okFor]

/-- C13 fails: a shutdown cancels the upload in progress (service.rs:166-183); the uploader does not look at the
result and acknowledges logs that were never uploaded (consumer.rs:535-539). -/
theorem C13_canceled_violated : ¬ C13_statement := by
  intro h
  have := h [.start, .write [7], .read ⟨1, 100⟩, .result .canceled, .advance] 0 (by decide)
  obtain ⟨u, hu, hp, _⟩ := this
  revert hp
  have : ∀ u ∈ (CU.init.run [.start, .write [7], .read ⟨1, 100⟩, .result .canceled, .advance]).finished, u.2 = .canceled := by
    decide
  simp [this u hu]

/-- C13 fails also when no upload is cancelled: after abandoning an upload because of a shutdown the uploader
may go on reading, finish another upload and acknowledge the logs of the abandoned one instead. -/
theorem C13_abort_violated : ∃ es : List CEv, (∀ r, CEv.result r ∈ es → r = .failure) ∧
    0 < (CU.init.run es).acked ∧ ¬ Uploaded (fun _ => True) (CU.init.run es) 0 := by
  refine ⟨[.start, .write [7], .write [8], .read ⟨1, 100⟩, .shut, .abortGo, .read ⟨1, 100⟩, .result .failure, .advance],
    by simp, by decide, ?_⟩
  rintro ⟨u, hu, _, d, hd, _⟩
  have : ∀ u ∈ (CU.init.run [.start, .write [7], .write [8], .read ⟨1, 100⟩, .shut, .abortGo, .read ⟨1, 100⟩,
      .result .failure, .advance]).finished, ∀ x ∈ u.1, x.1 ≠ 0 := by decide
  exact this u hu _ hd rfl

/-- C13: whatever happens, logs are acknowledged one at a time from the oldest, and only while an upload is
being completed. -/
theorem C13_ack_order (s : CU) (e : CEv) :
    (s.step e).acked = s.acked ∨ (e = .advance ∧ (∃ k, s.phase = .acking (k + 1)) ∧ (s.step e).acked = s.acked + 1) := by
  cases e with
  | advance =>
    cases hp : s.phase with
    | acking k =>
      cases k with
      | zero => left; simp only [CU.step, hp]
      | succ k => right; exact ⟨rfl, ⟨k, rfl⟩, by simp only [CU.step, hp]⟩
    | collecting => left; simp only [CU.step, hp]
    | stopped => left; simp only [CU.step, hp]
    | uploading l => left; simp only [CU.step, hp]
  | _ =>
    left
    simp only [CU.step, CU.check, CU.flush, CU.arm]
    first | done | ((repeat' split) <;> first | rfl | trivial)

/-- C13: after a restart the uploader reads the logs that were not acknowledged, from the oldest: a log read
before the stop but not part of a finished upload is read again. -/
theorem C13_restart (s : CU) (hs : s.phase = .stopped) (ls : List Limits)
    (hl : ∀ l ∈ ls, s.written.length - s.acked < l.logs ∧ (∀ n, (((s.written.drop s.acked).take n).map List.length).sum < l.bytes))
    (hn : ls.length ≤ s.written.length - s.acked) :
    let t := (s.step .start).run (ls.map CEv.read)
    t.phase = .collecting ∧ t.batch.map (·.2) = (s.written.drop s.acked).take ls.length ∧ t.acked = s.acked := by
  have key : ∀ ls' : List Limits, ls'.length ≤ s.written.length - s.acked →
      (∀ l ∈ ls', s.written.length - s.acked < l.logs ∧ (∀ n, (((s.written.drop s.acked).take n).map List.length).sum < l.bytes)) →
      let t := (s.step .start).run (ls'.map CEv.read)
      t.phase = .collecting ∧ t.batch.map (·.2) = (s.written.drop s.acked).take ls'.length ∧ t.acked = s.acked ∧
        t.pos = s.acked + ls'.length ∧ t.written = s.written := by
    intro ls'
    induction ls' using List.reverseRecOn with
    | nil => intro _ _; simp [CU.run, CU.step, hs]
    | append_singleton l x ih =>
      intro hlen hlim
      simp only [List.length_append, List.length_singleton] at hlen
      obtain ⟨i1, i2, i3, i4, i5⟩ := ih (by omega) fun y hy => hlim y (by simp [hy])
      simp only [List.map_append, List.map_cons, List.map_nil, CU.run, List.foldl_append, List.foldl_cons, List.foldl_nil]
      generalize hT : List.foldl CU.step (s.step .start) (l.map CEv.read) = T at *
      have hT' : (s.step .start).run (l.map CEv.read) = T := hT
      rw [hT'] at i1 i2 i3 i4 i5
      have hlt : T.pos < T.written.length := by rw [i4, i5]; omega
      have hd : T.written[T.pos]? = some T.written[T.pos] := List.getElem?_eq_getElem hlt
      have hstep : T.step (.read x) = CU.check { T with batch := T.batch ++ [(T.pos, T.written[T.pos])], pos := T.pos + 1 } x := by
        simp only [CU.step, i1, hd]
      rw [hstep]
      have hb2 : (T.batch ++ [(T.pos, T.written[T.pos])]).map (·.2) = (s.written.drop s.acked).take (l.length + 1) := by
        rw [List.map_append, i2, List.take_add_one]
        congr 1
        rw [List.getElem?_drop, ← i4, ← i5, hd]; rfl
      have hnl : CU.limit { T with batch := T.batch ++ [(T.pos, T.written[T.pos])], pos := T.pos + 1 } x = false := by
        obtain ⟨l1, l2⟩ := hlim x (by simp)
        have hsum := l2 (l.length + 1)
        rw [← hb2] at hsum
        have hlen2 : (T.batch ++ [(T.pos, T.written[T.pos])]).length ≤ s.written.length - s.acked := by
          have := congrArg List.length hb2
          simp only [List.length_map, List.length_take, List.length_drop] at this
          omega
        simp only [CU.limit]
        split
        · rfl
        · simp only [Bool.or_eq_false_iff, decide_eq_false_iff_not]
          constructor
          · rw [List.map_map] at hsum
            have : (List.length ∘ fun x : NLog => x.2) = fun x : NLog => x.2.length := rfl
            rw [this] at hsum
            omega
          · omega
      unfold CU.check
      rw [if_neg (by rw [hnl]; simp)]
      unfold CU.arm
      rw [if_neg (by simp)]
      refine ⟨i1, ?_, i3, ?_, i5⟩
      · simp only [List.length_append, List.length_singleton]; exact hb2
      · simp only [List.length_append, List.length_singleton]; omega
  obtain ⟨a, b, c, _⟩ := key ls hn hl
  exact ⟨a, b, c⟩

/-- C12 for the continuous uploader: whatever happens, every upload is a non-empty run of consecutive logs of
the buffer, in order. -/
theorem C12_continuous (es : List CEv) : ∀ u ∈ (CU.init.run es).finished,
    u.1 ≠ [] ∧ ∃ a, u.1.map (·.2) = ((CU.init.run es).written.drop a).take u.1.length := by
  intro u hu
  obtain ⟨h1, a, h2⟩ := (CU.wf_run es _ CU.wf_init).fin u hu
  refine ⟨h1, a, ?_⟩
  apply List.ext_getElem?
  intro i
  by_cases hi : i < u.1.length
  · have e1 : (u.1.map (·.1))[i]? = some (a + i) := by
      rw [h2.1, List.getElem?_range' hi]; simp
    rw [List.getElem?_map] at e1
    obtain ⟨x, hx, hxa⟩ := Option.map_eq_some_iff.mp e1
    have := h2.2 x (List.mem_of_getElem? hx)
    rw [hxa] at this
    rw [List.getElem?_map, hx, List.getElem?_take_of_lt hi, List.getElem?_drop, this]; rfl
  · have h3 : (u.1.map (·.2))[i]? = none := by simp; omega
    have h4 : ((CU.init.run es).written.drop a |>.take u.1.length)[i]? = none := by simp; omega
    rw [h3, h4]

/-- C12: a deadline never sends an empty batch: it is armed exactly while logs are pending. -/
theorem C12_deadline (es : List CEv) (h : (CU.init.run es).phase = .collecting) :
    (CU.init.run es).armed = true ↔ (CU.init.run es).batch ≠ [] :=
  (CU.wf_run es _ CU.wf_init).armed h

/-- A run with two batches, a stop in the middle of an upload and a restart. -/
example :
    let es : List CEv := [.start, .write [1], .write [2], .write [3], .read ⟨2, 9⟩, .read ⟨2, 9⟩, .result .success, .advance,
      .advance, .read ⟨2, 9⟩, .deadline, .shut, .abortStop, .start, .read ⟨2, 9⟩]
    (∀ e ∈ es, e.okFor (· ≠ .canceled)) ∧ (CU.init.run es).acked = 2 ∧ (CU.init.run es).batch = [(2, [3])] := by
  refine ⟨?_, by decide, by decide⟩
  simp [CEv.okFor]

end Verif.Upload
