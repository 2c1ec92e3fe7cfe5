import Verif.Buffer.Model

/-
Geometry of the records that are alive in a ring buffer: they occupy one cyclic interval of the
memory, ending at `next_write_start`, broken at most once (at `last_write_end_before_wrap`).
Helper lemmas only; the property theorems are in `Props.lean`.
-/
namespace Verif.Buffer

/-- The records follow each other without holes from `a` to `b`, none is empty. -/
def Seg : Nat → List Range → Nat → Prop
  | a, [], b => a = b
  | a, r :: l, b => r.start = a ∧ 0 < r.size ∧ Seg r.stop l b

theorem Seg.le {a b : Nat} {l : List Range} (h : Seg a l b) : a ≤ b := by
  induction l generalizing a with
  | nil => simp [Seg] at h; omega
  | cons r l ih =>
    obtain ⟨h1, h2, h3⟩ := h
    have := ih h3
    simp [Range.stop] at this; omega

theorem Seg.lt {a b : Nat} {l : List Range} (h : Seg a l b) (hl : l ≠ []) : a < b := by
  cases l with
  | nil => exact absurd rfl hl
  | cons r l =>
    obtain ⟨h1, h2, h3⟩ := h
    have := h3.le
    simp [Range.stop] at this; omega

theorem Seg.mem {a b : Nat} {l : List Range} (h : Seg a l b) {r : Range} (hr : r ∈ l) :
    a ≤ r.start ∧ r.stop ≤ b ∧ 0 < r.size := by
  induction l generalizing a with
  | nil => simp at hr
  | cons r' l ih =>
    obtain ⟨h1, h2, h3⟩ := h
    rcases List.mem_cons.1 hr with rfl | hr
    · exact ⟨by omega, h3.le, h2⟩
    · have := ih h3 hr
      simp [Range.stop] at this ⊢; omega

theorem Seg.append {a b c : Nat} {l l' : List Range} (h : Seg a l b) (h' : Seg b l' c) :
    Seg a (l ++ l') c := by
  induction l generalizing a with
  | nil => simp [Seg] at h; subst h; simpa
  | cons r l ih => exact ⟨h.1, h.2.1, ih h.2.2⟩

theorem Seg.split {a c : Nat} {l l' : List Range} (h : Seg a (l ++ l') c) :
    ∃ b, Seg a l b ∧ Seg b l' c := by
  induction l generalizing a with
  | nil => exact ⟨a, rfl, h⟩
  | cons r l ih =>
    obtain ⟨b, h1, h2⟩ := ih h.2.2
    exact ⟨b, ⟨h.1, h.2.1, h1⟩, h2⟩

/-- Two ranges share no byte. -/
def Disj (a b : Range) : Prop := a.stop ≤ b.start ∨ b.stop ≤ a.start

theorem Disj.symm {a b : Range} (h : Disj a b) : Disj b a := Or.symm h

theorem Seg.pairwise {a b : Nat} {l : List Range} (h : Seg a l b) : l.Pairwise Disj := by
  induction l generalizing a with
  | nil => exact .nil
  | cons r l ih =>
    refine .cons (fun r' hr' => ?_) (ih h.2.2)
    exact Or.inl (h.2.2.mem hr').1

/-- `L` are the records alive in a memory of `len` bytes, oldest first. -/
def Layout (len nws : Nat) (lweb : Option Nat) (L : List Range) : Prop :=
  nws ≤ len ∧ (∀ e, lweb = some e → nws ≤ e + 1 ∧ e + 1 ≤ len) ∧
  ((∃ a, Seg a L nws) ∨
   (∃ a b P Q, L = P ++ Q ∧ P ≠ [] ∧ Q ≠ [] ∧ Seg a P b ∧ Seg 0 Q nws ∧ nws ≤ a ∧ b ≤ len ∧
      lweb = some (b - 1)))

theorem Layout.nil {len nws : Nat} {lweb : Option Nat} (h1 : nws ≤ len)
    (h2 : ∀ e, lweb = some e → nws ≤ e + 1 ∧ e + 1 ≤ len) : Layout len nws lweb [] :=
  ⟨h1, h2, Or.inl ⟨nws, rfl⟩⟩

theorem Layout.mem {len nws : Nat} {lweb : Option Nat} {L : List Range}
    (h : Layout len nws lweb L) {r : Range} (hr : r ∈ L) : r.stop ≤ len ∧ 0 < r.size := by
  obtain ⟨h1, h2, h3 | ⟨a, b, P, Q, rfl, hP, hQ, sP, sQ, hna, hb, hl⟩⟩ := h
  · obtain ⟨a, s⟩ := h3
    have := s.mem hr; omega
  · rcases List.mem_append.1 hr with hr | hr
    · have := sP.mem hr; omega
    · have := sQ.mem hr; omega

theorem Layout.pairwise {len nws : Nat} {lweb : Option Nat} {L : List Range}
    (h : Layout len nws lweb L) : L.Pairwise Disj := by
  obtain ⟨h1, h2, h3 | ⟨a, b, P, Q, rfl, hP, hQ, sP, sQ, hna, hb, hl⟩⟩ := h
  · obtain ⟨a, s⟩ := h3; exact s.pairwise
  · rw [List.pairwise_append]
    refine ⟨sP.pairwise, sQ.pairwise, fun r hr r' hr' => Or.inr ?_⟩
    have := sP.mem hr
    have := sQ.mem hr'
    omega

/-- Dropping the oldest record. -/
theorem Layout.tail {len nws : Nat} {lweb : Option Nat} {r : Range} {L : List Range}
    (h : Layout len nws lweb (r :: L)) : Layout len nws lweb L := by
  obtain ⟨h1, h2, h3 | ⟨a, b, P, Q, hL, hP, hQ, sP, sQ, hna, hb, hl⟩⟩ := h
  · obtain ⟨a, s⟩ := h3
    exact ⟨h1, h2, Or.inl ⟨_, s.2.2⟩⟩
  · cases P with
    | nil => exact absurd rfl hP
    | cons p P =>
      simp at hL
      obtain ⟨rfl, rfl⟩ := hL
      by_cases hP' : P = []
      · subst hP'
        exact ⟨h1, h2, Or.inl ⟨0, sQ⟩⟩
      · refine ⟨h1, h2, Or.inr ⟨_, b, P, Q, rfl, hP', hQ, sP.2.2, sQ, ?_, hb, hl⟩⟩
        have := sP.1; simp [Range.stop]; omega

/-- Where the second oldest record is, as computed by `advance_next_read`. -/
theorem Layout.next {len nws : Nat} {lweb : Option Nat} {r r' : Range} {L : List Range}
    (h : Layout len nws lweb (r :: r' :: L)) :
    (lweb = some (r.start + r.size - 1) → r'.start = 0 ∧ Layout len nws none (r' :: L)) ∧
    (lweb ≠ some (r.start + r.size - 1) → r'.start = r.start + r.size) := by
  obtain ⟨h1, h2, h3 | ⟨a, b, P, Q, hL, hP, hQ, sP, sQ, hna, hb, hl⟩⟩ := h
  · obtain ⟨a, s⟩ := h3
    have hs := s.2.2.1
    simp [Range.stop] at hs
    refine ⟨fun e => ?_, fun _ => hs⟩
    have h4 := h2 _ e
    have h5 := s.2.1
    have h6 := s.2.2.2.1
    have h7 := s.2.2.2.2.le
    simp [Range.stop] at h7
    omega
  · cases P with
    | nil => exact absurd rfl hP
    | cons p P =>
      simp at hL
      obtain ⟨rfl, hL⟩ := hL
      cases P with
      | nil =>
        simp at hL
        subst hL
        have hb' := sP.2.2
        simp [Seg, Range.stop] at hb'
        subst hb'
        refine ⟨fun _ => ⟨sQ.1, h1, by simp, Or.inl ⟨0, sQ⟩⟩, fun hne => absurd hl hne⟩
      | cons p' P =>
        simp at hL
        obtain ⟨rfl, rfl⟩ := hL
        have hs := sP.2.2.1
        simp [Range.stop] at hs
        refine ⟨fun e => ?_, fun _ => hs⟩
        rw [hl] at e
        have h5 := sP.2.1
        have h6 := sP.2.2.2.1
        have h7 := sP.2.2.2.2.le
        simp [Range.stop] at h7
        simp at e
        omega

/-- Forgetting the wrap marker is harmless once a single run of records is left. -/
theorem Layout.head_ne {len nws : Nat} {lweb : Option Nat} {r : Range} {L : List Range}
    (h : Layout len nws lweb (r :: L)) {r' : Range} (hr' : r' ∈ L) : r.start ≠ r'.start := by
  have h1 := h.pairwise
  have h2 := (List.pairwise_cons.1 h1).1 r' hr'
  have h3 := (h.mem (List.mem_cons_self)).2
  have h4 := (h.mem (List.mem_cons_of_mem _ hr')).2
  simp [Disj, Range.stop] at h2
  omega

/-! ### The region a new record needs -/

/-- Shares a byte with `[a, b)`. -/
def Range.hits (r : Range) (a b : Nat) : Bool := decide (max r.start a < min r.stop b)

/-- The bytes a new record of `n` bytes needs. -/
def needs (len nws n : Nat) (r : Range) : Bool :=
  if nws + n ≤ len then r.hits nws (nws + n) else r.hits 0 n || r.hits nws len

theorem needs_fit {len nws n : Nat} {r : Range} (hc : nws + n ≤ len) :
    needs len nws n r = true ↔
      r.start < nws + n ∧ nws < r.start + r.size ∧ 0 < r.size ∧ 0 < n := by
  simp only [needs, hc, if_true, Range.hits, decide_eq_true_eq]
  simp only [Range.stop]
  omega

theorem needs_wrap {len nws n : Nat} {r : Range} (hc : ¬ nws + n ≤ len) :
    needs len nws n r = true ↔
      (r.start < n ∧ 0 < r.size) ∨
      (r.start < len ∧ nws < r.start + r.size ∧ 0 < r.size ∧ nws < len) := by
  simp only [needs, hc, if_false, Range.hits, decide_eq_true_eq, Bool.or_eq_true]
  simp only [Range.stop]
  omega

theorem needs_false {len nws n : Nat} {r : Range} :
    needs len nws n r = false ↔ ¬ needs len nws n r = true := by simp

theorem needs_head {len nws n : Nat} {lweb : Option Nat} {r : Range} {L : List Range}
    (hn : n ≤ len) (h : Layout len nws lweb (r :: L)) (hr : needs len nws n r = false) :
    ∀ r' ∈ L, needs len nws n r' = false := by
  intro r' hr'
  obtain ⟨h1, h2, h3 | ⟨a, b, P, Q, hL, hP, hQ, sP, sQ, hna, hb, hl⟩⟩ := h
  · obtain ⟨a, s⟩ := h3
    have m := s.2.2.mem hr'
    have hrs := s.1
    have hr0 := s.2.1
    rw [needs_false] at hr ⊢
    simp only [Range.stop] at *
    by_cases hc : nws + n ≤ len
    · rw [needs_fit hc] at hr ⊢; omega
    · rw [needs_wrap hc] at hr ⊢; omega
  · cases P with
    | nil => exact absurd rfl hP
    | cons p P =>
      simp at hL
      obtain ⟨rfl, rfl⟩ := hL
      have hrs := sP.1
      have hr0 := sP.2.1
      have hrb := sP.2.2.le
      rcases List.mem_append.1 hr' with m | m
      · have m := sP.2.2.mem m
        rw [needs_false] at hr ⊢
        simp only [Range.stop] at *
        by_cases hc : nws + n ≤ len
        · rw [needs_fit hc] at hr ⊢; omega
        · rw [needs_wrap hc] at hr ⊢; omega
      · have m := sQ.mem m
        rw [needs_false] at hr ⊢
        simp only [Range.stop] at *
        by_cases hc : nws + n ≤ len
        · rw [needs_fit hc] at hr ⊢; omega
        · rw [needs_wrap hc] at hr ⊢; omega

/-- Records in the way form a prefix. -/
theorem needs_prefix {len nws n : Nat} {lweb : Option Nat} {A B : List Range} {r : Range}
    (hn : n ≤ len) (h : Layout len nws lweb (A ++ r :: B)) (hr : needs len nws n r = true) :
    ∀ r' ∈ A, needs len nws n r' = true := by
  induction A with
  | nil => simp
  | cons q A ih =>
    intro r' hr'
    have hq : needs len nws n q = true := by
      by_cases hq : needs len nws n q = true
      · exact hq
      · have := needs_head hn h (by simpa using hq) r (by simp)
        simp [this] at hr
    rcases List.mem_cons.1 hr' with rfl | hr'
    · exact hq
    · exact ih h.tail r' hr'

/-- Wrap marker after a reservation of `n` bytes: `start` of the record and the marker itself. -/
def lwebAfter (len nws n : Nat) (lweb : Option Nat) : Option Nat :=
  if nws + n ≤ len then
    match lweb with
    | some e => if nws + n - 1 > e then none else some e
    | none => none
  else if n - 1 > nws - 1 then none else some (nws - 1)

/-- Where a new record goes. -/
def placeOf (len nws n : Nat) : Nat := if nws + n ≤ len then nws else 0

/-- Adding a record once nothing is in its way. -/
theorem Layout.add {len nws n : Nat} {lweb : Option Nat} {L : List Range}
    (h : Layout len nws lweb L) (hn0 : 0 < n) (hn : n ≤ len)
    (hfree : ∀ r ∈ L, needs len nws n r = false) :
    Layout len (placeOf len nws n + n) (lwebAfter len nws n lweb)
      (L ++ [⟨placeOf len nws n, n⟩]) := by
  have hone : ∀ x, Seg x [⟨x, n⟩] (x + n) := fun x => ⟨rfl, hn0, rfl⟩
  obtain ⟨h1, h2, h3⟩ := h
  by_cases hc : nws + n ≤ len
  · have hp : placeOf len nws n = nws := by simp [placeOf, hc]
    rw [hp]
    have hl : ∀ e, lwebAfter len nws n lweb = some e → lweb = some e ∧ nws + n ≤ e + 1 := by
      intro e he
      simp [lwebAfter, hc] at he
      cases lweb with
      | none => simp at he
      | some e' =>
        simp at he
        obtain ⟨h4, rfl⟩ := he
        exact ⟨rfl, by omega⟩
    refine ⟨hc, fun e he => ⟨(hl e he).2, (h2 e (hl e he).1).2⟩, ?_⟩
    obtain ⟨a, s⟩ | ⟨a, b, P, Q, rfl, hP, hQ, sP, sQ, hna, hb, hlw⟩ := h3
    · exact Or.inl ⟨a, s.append (hone nws)⟩
    · -- the record must end before the old run
      have hle : nws + n ≤ a := by
        cases P with
        | nil => exact absurd rfl hP
        | cons p P =>
          have hf := hfree p (by simp)
          have := sP.1
          have := sP.2.1
          rw [needs_false, needs_fit hc] at hf
          omega
      refine Or.inr ⟨a, b, P, Q ++ [⟨nws, n⟩], by simp, hP, by simp, sP, sQ.append (hone nws), hle,
        hb, ?_⟩
      have := sP.lt hP
      subst hlw
      simp only [lwebAfter, hc, if_true]
      rw [if_neg (by omega)]
  · have hp : placeOf len nws n = 0 := by simp [placeOf, hc]
    rw [hp]
    have hnws : 0 < nws := by omega
    have hl : ∀ e, lwebAfter len nws n lweb = some e → e = nws - 1 ∧ n ≤ nws := by
      intro e he
      simp [lwebAfter, hc] at he
      omega
    refine ⟨by omega, fun e he => ?_, ?_⟩
    · have := hl e he; omega
    · by_cases hL : L = []
      · subst hL
        exact Or.inl ⟨0, by simpa using hone 0⟩
      · obtain ⟨a, s⟩ | ⟨a, b, P, Q, rfl, hP, hQ, sP, sQ, hna, hb, hlw⟩ := h3
        · have hna : n ≤ a := by
            cases L with
            | nil => exact absurd rfl hL
            | cons p P =>
              have hf := hfree p (by simp)
              have := s.1
              have := s.2.1
              have := s.2.2.le
              rw [needs_false, needs_wrap hc] at hf
              simp only [Range.stop] at *
              omega
          have := s.lt hL
          refine Or.inr ⟨a, nws, L, [⟨0, n⟩], rfl, hL, by simp, s, by simpa using hone 0, by omega,
            h1, ?_⟩
          simp only [lwebAfter, hc, if_false]
          rw [if_neg (by omega)]
        · -- impossible: the old run lies in the abandoned space
          exfalso
          cases P with
          | nil => exact absurd rfl hP
          | cons p P =>
            have hf := hfree p (by simp)
            have := sP.1
            have := sP.2.1
            have := sP.2.2.le
            rw [needs_false, needs_wrap hc] at hf
            simp only [Range.stop] at *
            omega

/-- The new record shares no byte with those that are not in its way. -/
theorem disj_of_not_needs {len nws n : Nat} {r : Range} (hr0 : 0 < r.size) (hn0 : 0 < n)
    (h : needs len nws n r = false) : Disj ⟨placeOf len nws n, n⟩ r := by
  rw [needs_false] at h
  by_cases hc : nws + n ≤ len
  · rw [needs_fit hc] at h
    simp only [placeOf, hc, if_true, Disj, Range.stop]; omega
  · rw [needs_wrap hc] at h
    simp only [placeOf, hc, if_false, Disj, Range.stop]; omega

/-- The code's intersection test, for non-empty records. -/
theorem intersectReservation_eq (c : Core) (n : Nat) (r : Range) (hn0 : 0 < n) (hn : n ≤ c.len)
    (hnws : c.nws ≤ c.len) (hr0 : 0 < r.size) (hr : r.stop ≤ c.len) :
    c.intersectReservation (c.calcNextWriteStart n) r = needs c.len c.nws n r := by
  rw [Bool.eq_iff_iff]
  simp only [Range.stop] at hr
  by_cases hc : c.nws + n ≤ c.len
  · rw [needs_fit hc]
    simp only [Core.intersectReservation, Core.calcNextWriteStart, Core.intersectWrapGap, hc,
      if_true, intersect, Bool.or_false, Bool.and_eq_true, decide_eq_true_eq]
    omega
  · rw [needs_wrap hc]
    simp only [Core.intersectReservation, Core.calcNextWriteStart, Core.intersectWrapGap, hc,
      if_false, intersect, Bool.or_eq_true, Bool.and_eq_true, decide_eq_true_eq]
    omega

end Verif.Buffer
