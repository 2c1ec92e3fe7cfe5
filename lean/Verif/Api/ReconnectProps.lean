import Verif.Api.Reconnect

namespace Verif.Reconn

/-! ### Specification -/

/-- The times at which streams are started. -/
def starts (l : List (Nat × Tr)) : List Nat := l.filterMap fun x => match x.2 with | .start => some x.1 | _ => none

theorem starts_append (a b : List (Nat × Tr)) : starts (a ++ b) = starts a ++ starts b := by
  simp [starts, List.filterMap_append]

/-- The back-off values in force are never smaller than `m`. -/
def AtLeast (m : Nat) (b : Backoff) (ts : List Turn) : Prop :=
  m ≤ b.initial ∧ m ≤ b.max ∧ ∀ t ∈ ts, ∀ c, t.change = some c → m ≤ c.1 ∧ m ≤ c.2

/-- Neighbours differ by at least `g`. -/
def Gap (g : Nat) : List Nat → Prop
  | a :: b :: l => a + g ≤ b ∧ Gap g (b :: l)
  | _ => True

theorem turn_starts (s : Conn) (t : Turn) : starts (turn s t).2 = [s.now] := by
  unfold turn
  cases t.res with
  | refused => rfl
  | lived life => simp only; split <;> rfl

theorem run_starts (s : Conn) (t : Turn) (ts : List Turn) : ∃ l, starts (run s (t :: ts)) = s.now :: l := by
  simp only [run, starts_append, turn_starts]
  exact ⟨_, rfl⟩

theorem applyChange_least (m : Nat) (b : Backoff) (t : Turn) (h : m ≤ b.initial ∧ m ≤ b.max ∧ m ≤ b.cur)
    (hc : ∀ c, t.change = some c → m ≤ c.1 ∧ m ≤ c.2) :
    let b' := applyChange b t.change
    m ≤ b'.initial ∧ m ≤ b'.max ∧ m ≤ b'.cur := by
  cases ht : t.change with
  | none => exact h
  | some c => have := hc c ht; simp only [applyChange, policy]; omega

theorem bump_least (m : Nat) (b : Backoff) (h : m ≤ b.initial ∧ m ≤ b.max ∧ m ≤ b.cur) :
    m ≤ b.bump.initial ∧ m ≤ b.bump.max ∧ m ≤ b.bump.cur := by
  refine ⟨h.1, h.2.1, ?_⟩
  simp only [Backoff.bump]
  split <;> omega

/-- One turn takes at least the gap, and keeps the bounds. -/
theorem turn_least (m : Nat) (s : Conn) (t : Turn) (h : m ≤ s.backoff.initial ∧ m ≤ s.backoff.max ∧ m ≤ s.backoff.cur)
    (hc : ∀ c, t.change = some c → m ≤ c.1 ∧ m ≤ c.2) (hd : Draws s [t]) :
    (m ≤ (turn s t).1.backoff.initial ∧ m ≤ (turn s t).1.backoff.max ∧ m ≤ (turn s t).1.backoff.cur) ∧
    s.now + min 60000 (m / 2) ≤ (turn s t).1.now := by
  have hb := applyChange_least m s.backoff t h hc
  have hw := bump_least m _ hb
  simp only [Draws, and_true] at hd
  unfold turn
  cases hr : t.res with
  | refused =>
    rw [hr] at hd
    simp only [Draw] at hd
    exact ⟨hw, by simp only at hb ⊢; omega⟩
  | lived life =>
    rw [hr] at hd
    simp only at hd ⊢
    split
    · rename_i hl
      simp only [minute] at hl
      exact ⟨⟨hb.1, hb.2.1, hb.1⟩, by simp only; omega⟩
    · rename_i hl
      have hdr := hd.resolve_left hl
      simp only [Draw] at hdr
      exact ⟨hw, by simp only at hb ⊢; omega⟩

/-- **C73.** Between the starts of two streams there is at least a minute, or half of the smallest back-off interval configured. -/
theorem C73_gap (m : Nat) (s : Conn) (ts : List Turn) (hm : AtLeast m s.backoff ts) (hcur : m ≤ s.backoff.cur) (hd : Draws s ts) :
    Gap (min 60000 (m / 2)) (starts (run s ts)) := by
  induction ts generalizing s with
  | nil => exact trivial
  | cons t ts ih =>
    obtain ⟨h1, h2⟩ := turn_least m s t ⟨hm.1, hm.2.1, hcur⟩ (hm.2.2 t List.mem_cons_self) ⟨hd.1, trivial⟩
    have hrec := ih (turn s t).1 ⟨h1.1, h1.2.1, fun t' ht' => hm.2.2 t' (List.mem_cons_of_mem _ ht')⟩ h1.2.2 hd.2
    simp only [run, starts_append, turn_starts, List.singleton_append]
    cases ts with
    | nil => exact trivial
    | cons t' ts =>
      obtain ⟨l, hl⟩ := run_starts (turn s t).1 t' ts
      rw [hl] at hrec ⊢
      exact ⟨h2, hrec⟩

theorem gap_count (g : Nat) : ∀ (l : List Nat) (a T : Nat), Gap g (a :: l) → (∀ x ∈ l, x ≤ a + T) → l.length * g ≤ T := by
  intro l
  induction l with
  | nil => intro a T _ _; simp
  | cons b l ih =>
    intro a T hg hb
    obtain ⟨h1, h2⟩ := hg
    have hbT := hb b List.mem_cons_self
    have := ih b (a + T - b) h2 (fun x hx => by have := hb x (List.mem_cons_of_mem _ hx); omega)
    have h3 : (b :: l).length * g = l.length * g + g := by rw [List.length_cons, Nat.add_mul]; omega
    omega

/-- **C73**, as a rate: in any stretch of time `T` from the first start, the number of further starts times the gap is at most `T`. -/
theorem C73_rate (m : Nat) (s : Conn) (ts : List Turn) (hm : AtLeast m s.backoff ts) (hcur : m ≤ s.backoff.cur) (hd : Draws s ts)
    (T : Nat) (a : Nat) (l : List Nat) (hs : starts (run s ts) = a :: l) (hT : ∀ x ∈ l, x ≤ a + T) :
    l.length * min 60000 (m / 2) ≤ T :=
  gap_count _ l a T (hs ▸ C73_gap m s ts hm hcur hd) hT

/-- Without new values of the flags. -/
def Short (t : Turn) : Prop := t.change = none ∧ ∀ life, t.res = .lived life → life ≤ 60000

/-- The state after some turns. -/
def after (s : Conn) : List Turn → Conn
  | [] => s
  | t :: ts => after (turn s t).1 ts

theorem turn_short (s : Conn) (t : Turn) (h : Short t) : (turn s t).1.backoff = s.backoff.bump := by
  unfold turn
  rw [h.1]
  cases hr : t.res with
  | refused => rfl
  | lived life =>
    have := h.2 life hr
    have hn : ¬ minute < life := by simp only [minute]; omega
    simp only [hn, if_false]
    rfl

/-- **C73.** Connections that last less than a minute make the interval grow by half each time, up to the configured maximum:
after `k` of them it is the maximum, or (up to rounding) at least (3/2)^k times what it was. -/
theorem C73_growth (s : Conn) (ts : List Turn) (h : ∀ t ∈ ts, Short t) (hle : s.backoff.cur ≤ s.backoff.max) :
    (after s ts).backoff.cur ≤ s.backoff.max ∧
    ((after s ts).backoff.cur = s.backoff.max ∨
      3 ^ ts.length * (s.backoff.cur - 1) ≤ 2 ^ ts.length * ((after s ts).backoff.cur - 1)) := by
  induction ts generalizing s with
  | nil => exact ⟨hle, .inr (by simp [after])⟩
  | cons t ts ih =>
    have hb := turn_short s t (h t List.mem_cons_self)
    have hmax : (turn s t).1.backoff.max = s.backoff.max := by rw [hb]; rfl
    have hcur : (turn s t).1.backoff.cur = if 2 * s.backoff.max ≤ 3 * s.backoff.cur then s.backoff.max else s.backoff.cur * 3 / 2 := by
      rw [hb]; rfl
    have hle' : (turn s t).1.backoff.cur ≤ (turn s t).1.backoff.max := by
      rw [hcur, hmax]; split <;> omega
    obtain ⟨h1, h2⟩ := ih (turn s t).1 (fun t' ht' => h t' (List.mem_cons_of_mem _ ht')) hle'
    simp only [after]
    rw [hmax] at h1 h2
    refine ⟨h1, ?_⟩
    by_cases hc : 2 * s.backoff.max ≤ 3 * s.backoff.cur
    · left
      rw [if_pos hc] at hcur
      rcases h2 with h2 | h2
      · exact h2
      · rw [hcur] at h2
        have h3 : 2 ^ ts.length * (s.backoff.max - 1) ≤ 3 ^ ts.length * (s.backoff.max - 1) :=
          Nat.mul_le_mul_right _ (Nat.pow_le_pow_left (by omega) _)
        have h4 := Nat.le_of_mul_le_mul_left (Nat.le_trans h3 h2) (Nat.pow_pos (by omega))
        by_cases hz : s.backoff.max = 0
        · omega
        · have h5 : (after (turn s t).1 ts).backoff.cur ≤ s.backoff.max := h1
          by_cases hx : (after (turn s t).1 ts).backoff.cur = 0
          · have : s.backoff.max = 1 := by omega
            -- the interval never falls
            exfalso
            have mono : ∀ (ts : List Turn) (s : Conn), (∀ t ∈ ts, Short t) → s.backoff.cur ≤ s.backoff.max → s.backoff.cur ≤ (after s ts).backoff.cur := by
              intro ts
              induction ts with
              | nil => intro s _ _; exact Nat.le_refl _
              | cons t ts ih =>
                intro s hs hl
                have hb := turn_short s t (hs t List.mem_cons_self)
                have e1 : (turn s t).1.backoff.max = s.backoff.max := by rw [hb]; rfl
                have e2 : (turn s t).1.backoff.cur = if 2 * s.backoff.max ≤ 3 * s.backoff.cur then s.backoff.max else s.backoff.cur * 3 / 2 := by
                  rw [hb]; rfl
                have := ih (turn s t).1 (fun t' ht' => hs t' (List.mem_cons_of_mem _ ht')) (by rw [e1, e2]; split <;> omega)
                simp only [after]
                refine Nat.le_trans ?_ this
                rw [e2]; split <;> omega
            have := mono ts (turn s t).1 (fun t' ht' => h t' (List.mem_cons_of_mem _ ht')) hle'
            rw [hcur] at this
            omega
          · omega
    · rw [if_neg hc] at hcur
      rcases h2 with h2 | h2
      · exact .inl h2
      · right
        rw [hcur] at h2
        have e : 3 * (s.backoff.cur - 1) ≤ 2 * (s.backoff.cur * 3 / 2 - 1) := by omega
        calc 3 ^ (t :: ts).length * (s.backoff.cur - 1) = 3 ^ ts.length * (3 * (s.backoff.cur - 1)) := by
              rw [List.length_cons, Nat.pow_succ, Nat.mul_assoc]
          _ ≤ 3 ^ ts.length * (2 * (s.backoff.cur * 3 / 2 - 1)) := Nat.mul_le_mul_left _ e
          _ = 2 * (3 ^ ts.length * (s.backoff.cur * 3 / 2 - 1)) := by rw [Nat.mul_left_comm]
          _ ≤ 2 * (2 ^ ts.length * ((after (turn s t).1 ts).backoff.cur - 1)) := Nat.mul_le_mul_left _ h2
          _ = 2 ^ (t :: ts).length * ((after (turn s t).1 ts).backoff.cur - 1) := by
              rw [List.length_cons, Nat.pow_succ, Nat.mul_comm (2 ^ ts.length) 2, Nat.mul_assoc]

/-- The values of the flags in force, and the current interval, are at most `M`. -/
def AtMost (M : Nat) (b : Backoff) (ts : List Turn) : Prop :=
  b.initial ≤ M ∧ b.max ≤ M ∧ b.cur ≤ M ∧ ∀ t ∈ ts, ∀ c, t.change = some c → c.1 ≤ M ∧ c.2 ≤ M

theorem turn_most (M : Nat) (s : Conn) (t : Turn) (ts : List Turn) (h : AtMost M s.backoff (t :: ts)) :
    (applyChange s.backoff t.change).cur ≤ M ∧ AtMost M (turn s t).1.backoff ts := by
  obtain ⟨h1, h2, h3, h4⟩ := h
  have hb : (applyChange s.backoff t.change).initial ≤ M ∧ (applyChange s.backoff t.change).max ≤ M ∧
      (applyChange s.backoff t.change).cur ≤ M := by
    cases hc : t.change with
    | none => exact ⟨h1, h2, h3⟩
    | some c => have := h4 t List.mem_cons_self c hc; exact ⟨this.1, this.2, this.1⟩
  have hw : (applyChange s.backoff t.change).bump.cur ≤ M := by
    simp only [Backoff.bump]
    split
    · exact hb.2.1
    · omega
  refine ⟨hb.2.2, ?_⟩
  have hts : ∀ t' ∈ ts, ∀ c, t'.change = some c → c.1 ≤ M ∧ c.2 ≤ M := fun t' ht' => h4 t' (List.mem_cons_of_mem _ ht')
  unfold turn
  cases t.res with
  | refused => exact ⟨hb.1, hb.2.1, hw, hts⟩
  | lived life =>
    simp only
    split
    · exact ⟨hb.1, hb.2.1, hb.1, hts⟩
    · exact ⟨hb.1, hb.2.1, hw, hts⟩

/-- All delays used. -/
def waits (s : Conn) : List Turn → List Nat
  | [] => []
  | t :: ts => (match t.res with
      | .lived life => if 60000 < life then [] else [t.wait]
      | .refused => [t.wait]) ++ waits (turn s t).1 ts

/-- **C73 (partial).** A delay is at most one and a half times the larger of the configured values.  The comment at
bd-runtime/src/runtime.rs:776-778 promises that it never exceeds the configured maximum (`C73_max_violated`). -/
theorem C73_delay_partial (M : Nat) (s : Conn) (ts : List Turn) (h : AtMost M s.backoff ts) (hd : Draws s ts) :
    ∀ w ∈ waits s ts, 2 * w ≤ 3 * M := by
  induction ts generalizing s with
  | nil => intro w hw; simp [waits] at hw
  | cons t ts ih =>
    obtain ⟨hc, hr⟩ := turn_most M s t ts h
    intro w hw
    simp only [waits, List.mem_append] at hw
    rcases hw with hw | hw
    · have hd1 := hd.1
      cases hres : t.res with
      | refused =>
        rw [hres] at hd1 hw
        simp only [List.mem_singleton] at hw
        simp only [Draw] at hd1
        omega
      | lived life =>
        rw [hres] at hd1 hw
        simp only at hd1 hw
        split at hw
        · cases hw
        · rename_i hl
          simp only [List.mem_singleton] at hw
          have := hd1.resolve_left hl
          simp only [Draw] at this
          omega
    · exact ih _ hr hd.2 w hw

/-- **C73 (violated).** With an interval of five minutes, the maximum, seven and a half minutes may be waited. -/
theorem C73_max_violated :
    ∃ (s : Conn) (ts : List Turn), AtMost 300000 s.backoff ts ∧ Draws s ts ∧ 450000 ∈ waits s ts :=
  ⟨⟨0, ⟨500, 300000, 300000⟩, none⟩, [⟨none, 0, .refused, 450000⟩],
    ⟨by decide, by decide, by decide, fun t ht c hc => by
      simp only [List.mem_singleton] at ht; subst ht; cases hc⟩,
    ⟨by simp [Draw, applyChange], trivial⟩, by simp [waits]⟩

/-- `C73_gap` and `C73_growth` on a concrete history: three attempts are refused, one stream lives for ten seconds. -/
def someTurns : List Turn :=
  [⟨none, 10, .refused, 300⟩, ⟨none, 10, .refused, 700⟩, ⟨none, 10, .refused, 900⟩, ⟨none, 50, .lived 10000, 1000⟩, ⟨none, 0, .refused, 2000⟩]

example : Draws ⟨0, policy 500 300000, none⟩ someTurns ∧ AtLeast 500 (policy 500 300000) someTurns ∧
    starts (run ⟨0, policy 500 300000, none⟩ someTurns) = [0, 310, 1020, 1930, 12980] ∧ (∀ t ∈ someTurns, Short t) := by
  refine ⟨by simp [Draws, someTurns, Draw, turn, applyChange, policy, Backoff.bump, minute], ⟨by decide, by decide, ?_⟩, by decide, ?_⟩
  · intro t ht c hc
    simp only [someTurns, List.mem_cons, List.not_mem_nil, or_false] at ht
    rcases ht with rfl | rfl | rfl | rfl | rfl <;> cases hc
  · intro t ht
    simp only [someTurns, List.mem_cons, List.not_mem_nil, or_false] at ht
    rcases ht with rfl | rfl | rfl | rfl | rfl <;> exact ⟨rfl, fun life h => by cases h <;> decide⟩

/-! ### Network quality -/

/-- Times of streams being there, in what was seen. -/
def upTimes (l : List (Nat × Tr)) : List Nat := l.filterMap fun x => match x.2 with | .established => some x.1 | .closed => some x.1 | _ => none

theorem upTimes_append (a b : List (Nat × Tr)) : upTimes (a ++ b) = upTimes a ++ upTimes b := by
  simp [upTimes, List.filterMap_append]

/-- **C74.** "Offline" is reported only after more than 15 seconds without a stream. -/
theorem C74_offline (s : Conn) (ts : List Turn) (hs : s.disc = none) (pre post : List (Nat × Tr)) (t : Nat)
    (h : run s ts = pre ++ (t, .quality .offline) :: post) :
    s.now + 15000 < t ∧ ∀ x ∈ upTimes pre, x + 15000 < t := by
  have gen : ∀ (ts : List Turn) (s : Conn) (past : List Nat) (t0 : Nat),
      (∀ x ∈ past, x ≤ s.now ∧ ∀ d, s.disc = some d → x ≤ d) → t0 ≤ s.now → (∀ d, s.disc = some d → t0 ≤ d) →
      ∀ (pre post : List (Nat × Tr)) (t : Nat), run s ts = pre ++ (t, .quality .offline) :: post →
      t0 + 15000 < t ∧ ∀ x ∈ past ++ upTimes pre, x + 15000 < t := by
    intro ts
    induction ts with
    | nil => intro s past t0 _ _ _ pre post t h; simp [run] at h
    | cons u ts ih =>
      intro s past t0 hp h0 h1 pre post t h
      simp only [run] at h
      -- the first event is the only one of the turn that can be "offline"
      have key : ∀ (rest : List (Nat × Tr)), (turn s u).2 = (s.now, .quality (topQuality (s.disc.getD s.now) s.now)) :: rest →
          (∀ x ∈ rest, x.2 ≠ .quality .offline) →
          t0 + 15000 < t ∧ ∀ x ∈ past ++ upTimes pre, x + 15000 < t := by
        intro rest hrest hno
        rw [hrest] at h
        cases pre with
        | nil =>
          simp only [List.nil_append, List.cons_append, List.cons.injEq, Prod.mk.injEq, Tr.quality.injEq] at h
          obtain ⟨⟨ht, hq⟩, -⟩ := h
          unfold topQuality gracePeriod at hq
          cases hd : s.disc with
          | none => rw [hd] at hq; simp at hq
          | some d =>
            rw [hd] at hq
            simp only [Option.getD_some] at hq
            split at hq
            · have := h1 d hd
              refine ⟨by omega, fun x hx => ?_⟩
              simp only [upTimes, List.filterMap_nil, List.append_nil] at hx
              have := (hp x hx).2 d hd
              omega
            · cases hq
        | cons p pre =>
          simp only [List.cons_append, List.cons.injEq] at h
          obtain ⟨hp0, h⟩ := h
          -- the event is not in `rest`
          obtain ⟨as, ha, hb⟩ : ∃ as, pre = rest ++ as ∧ run (turn s u).1 ts = as ++ (t, .quality .offline) :: post := by
            rcases List.append_eq_append_iff.mp h with ⟨as, ha, hb⟩ | ⟨bs, ha, hb⟩
            · exact ⟨as, ha, hb⟩
            · cases bs with
              | nil => refine ⟨[], by simpa using ha.symm, by simpa using hb.symm⟩
              | cons b bs =>
                simp only [List.cons_append, List.cons.injEq] at hb
                exact absurd rfl (hno (t, .quality .offline) (by rw [ha, ← hb.1]; simp))
          have hup : upTimes (p :: pre) = upTimes ((turn s u).2) ++ upTimes as := by
            rw [hrest, ← hp0, ha, ← List.cons_append, upTimes_append]
          rw [hup, ← List.append_assoc]
          refine ih (turn s u).1 (past ++ upTimes (turn s u).2) t0 ?_ ?_ ?_ as post t hb
          · intro x hx
            rcases List.mem_append.mp hx with hx | hx
            · have hx1 := (hp x hx).1
              have hx2 := (hp x hx).2
              unfold turn
              cases hr : u.res with
              | refused =>
                refine ⟨by simp only; omega, fun d hd => ?_⟩
                simp only [Option.some.injEq] at hd
                rw [← hd]
                cases hsd : s.disc with
                | none => exact hx1
                | some d' => exact hx2 d' hsd
              | lived life =>
                simp only
                split
                · exact ⟨by simp only; omega, fun d hd => nomatch hd⟩
                · exact ⟨by simp only; omega, fun d hd => nomatch hd⟩
            · unfold turn at hx ⊢
              cases hr : u.res with
              | refused => rw [hr] at hx; simp [upTimes] at hx
              | lived life =>
                rw [hr] at hx
                simp only at hx ⊢
                split at hx
                · rename_i hl
                  simp only [hl, if_true]
                  simp [upTimes] at hx
                  refine ⟨by omega, fun d hd => nomatch hd⟩
                · rename_i hl
                  simp only [hl, if_false]
                  simp [upTimes] at hx
                  refine ⟨by omega, fun d hd => nomatch hd⟩
          · unfold turn
            cases hr : u.res with
            | refused => simp only; omega
            | lived life => simp only; split <;> (simp only; omega)
          · intro d hd
            unfold turn at hd
            cases hr : u.res with
            | refused =>
              rw [hr] at hd
              simp only [Option.some.injEq] at hd
              rw [← hd]
              cases hsd : s.disc with
              | none => exact h0
              | some d' => exact h1 d' hsd
            | lived life =>
              rw [hr] at hd
              simp only at hd
              split at hd <;> cases hd
      unfold turn at key
      cases hr : u.res with
      | refused =>
        rw [hr] at key
        exact key _ rfl (by simp)
      | lived life =>
        rw [hr] at key
        simp only at key
        split at key
        · exact key _ rfl (by simp)
        · exact key _ rfl (by simp)
  have := gen ts s [] s.now (fun _ h => nomatch h) (Nat.le_refl _) (fun d hd => by rw [hs] at hd; cases hd) pre post t h
  simpa using this

/-- Times of the starts since the last stream was there. -/
def sinceUp (acc : List Nat) : List (Nat × Tr) → List Nat
  | [] => acc
  | (_, .established) :: l => sinceUp [] l
  | (x, .start) :: l => sinceUp (acc ++ [x]) l
  | _ :: l => sinceUp acc l

theorem sinceUp_append (a b : List (Nat × Tr)) : ∀ acc, sinceUp acc (a ++ b) = sinceUp (sinceUp acc a) b := by
  induction a with
  | nil => intro acc; rfl
  | cons p a ih =>
    intro acc
    obtain ⟨x, e⟩ := p
    cases e <;> exact ih _

theorem sinceUp_keep (x : Nat) (b : List (Nat × Tr)) (hb : ∀ y, (y, Tr.established) ∉ b) : ∀ acc, x ∈ acc → x ∈ sinceUp acc b := by
  induction b with
  | nil => intro acc h; exact h
  | cons p b ih =>
    intro acc h
    obtain ⟨y, e⟩ := p
    have hb' : ∀ y, (y, Tr.established) ∉ b := fun y hy => hb y (List.mem_cons_of_mem _ hy)
    cases e with
    | established => exact absurd List.mem_cons_self (hb y)
    | start => exact ih hb' _ (List.mem_append_left _ h)
    | quality q => exact ih hb' _ h
    | closed => exact ih hb' _ h

/-- **C74.** While there is no stream, "unknown" is not reported any more once more than 15 seconds have passed since an attempt
that has not led to a stream: from then on it is "offline". -/
theorem C74_unknown (s : Conn) (ts : List Turn) (hs : s.disc = none) (a b post : List (Nat × Tr)) (x t : Nat)
    (h : run s ts = a ++ (x, .start) :: (b ++ (t, .quality .unknown) :: post)) (hb : ∀ y, (y, Tr.established) ∉ b) :
    t ≤ x + 15000 := by
  have gen : ∀ (ts : List Turn) (s : Conn) (past : List Nat),
      (s.disc = none → past = []) → (∀ d, s.disc = some d → d ≤ s.now ∧ ∀ x ∈ past, d ≤ x) →
      ∀ (pre post : List (Nat × Tr)) (t : Nat), run s ts = pre ++ (t, .quality .unknown) :: post →
      ∀ x ∈ sinceUp past pre, t ≤ x + 15000 := by
    intro ts
    induction ts with
    | nil => intro s past _ _ pre post t h; simp [run] at h
    | cons u ts ih =>
      intro s past h0 h1 pre post t h
      simp only [run] at h
      have key : ∀ (rest : List (Nat × Tr)), (turn s u).2 = (s.now, .quality (topQuality (s.disc.getD s.now) s.now)) :: rest →
          (∀ x ∈ rest, x.2 ≠ .quality .unknown) → ∀ x ∈ sinceUp past pre, t ≤ x + 15000 := by
        intro rest hrest hno
        rw [hrest] at h
        cases pre with
        | nil =>
          simp only [List.nil_append, List.cons_append, List.cons.injEq, Prod.mk.injEq, Tr.quality.injEq] at h
          obtain ⟨⟨ht, hq⟩, -⟩ := h
          intro x hx
          simp only [sinceUp] at hx
          unfold topQuality gracePeriod at hq
          cases hd : s.disc with
          | none => rw [h0 hd] at hx; cases hx
          | some d =>
            rw [hd] at hq
            simp only [Option.getD_some] at hq
            split at hq
            · cases hq
            · have := (h1 d hd).2 x hx
              omega
        | cons p pre =>
          simp only [List.cons_append, List.cons.injEq] at h
          obtain ⟨hp0, h⟩ := h
          obtain ⟨as, ha, hb⟩ : ∃ as, pre = rest ++ as ∧ run (turn s u).1 ts = as ++ (t, .quality .unknown) :: post := by
            rcases List.append_eq_append_iff.mp h with ⟨as, ha, hb⟩ | ⟨bs, ha, hb⟩
            · exact ⟨as, ha, hb⟩
            · cases bs with
              | nil => refine ⟨[], by simpa using ha.symm, by simpa using hb.symm⟩
              | cons b bs =>
                simp only [List.cons_append, List.cons.injEq] at hb
                exact absurd rfl (hno (t, .quality .unknown) (by rw [ha, ← hb.1]; simp))
          have hup : sinceUp past (p :: pre) = sinceUp (sinceUp past (turn s u).2) as := by
            rw [hrest, ← hp0, ha, ← List.cons_append, sinceUp_append]
          rw [hup]
          refine ih (turn s u).1 (sinceUp past (turn s u).2) ?_ ?_ as post t hb
          · intro hd
            unfold turn at hd ⊢
            cases hr : u.res with
            | refused => rw [hr] at hd; cases hd
            | lived life => simp only; split <;> rfl
          · intro d hd
            unfold turn at hd ⊢
            cases hr : u.res with
            | refused =>
              rw [hr] at hd
              simp only [Option.some.injEq] at hd
              have hdn : d ≤ s.now ∧ ∀ x ∈ past, d ≤ x := by
                cases hsd : s.disc with
                | none => rw [hsd] at hd; rw [h0 hsd, ← hd]; exact ⟨Nat.le_refl _, fun _ h => nomatch h⟩
                | some d' => rw [hsd] at hd; rw [← hd]; exact h1 d' hsd
              refine ⟨by simp only; omega, fun x hx => ?_⟩
              simp only [sinceUp, List.mem_append, List.mem_singleton] at hx
              rcases hx with hx | hx
              · exact hdn.2 x hx
              · rw [hx]; exact hdn.1
            | lived life =>
              rw [hr] at hd
              simp only at hd
              split at hd <;> cases hd
      unfold turn at key
      cases hr : u.res with
      | refused =>
        rw [hr] at key
        exact key _ rfl (by simp)
      | lived life =>
        rw [hr] at key
        simp only at key
        split at key
        · exact key _ rfl (by simp)
        · exact key _ rfl (by simp)
  refine gen ts s [] (fun _ => rfl) (fun d hd => by rw [hs] at hd; cases hd) (a ++ (x, .start) :: b) post t
    (by rw [h]; simp) x ?_
  rw [sinceUp_append]
  exact sinceUp_keep x b hb _ (by simp)

/-- The next thing that is seen. -/
def next (l : List (Nat × Tr)) : Option (Nat × Tr) := l.head?

theorem next_run (s : Conn) (ts : List Turn) : ∀ x, next (run s ts) = some x → ∃ q, q ≠ .online ∧ x = (s.now, .quality q) := by
  cases ts with
  | nil => intro x h; simp [run, next] at h
  | cons t ts =>
    intro x h
    have : ∃ rest, (turn s t).2 = (s.now, .quality (topQuality (s.disc.getD s.now) s.now)) :: rest := by
      unfold turn
      cases t.res with
      | refused => exact ⟨_, rfl⟩
      | lived life => simp only; split <;> exact ⟨_, rfl⟩
    obtain ⟨rest, hr⟩ := this
    simp only [run, hr, next, List.cons_append, List.head?_cons, Option.some.injEq] at h
    refine ⟨_, ?_, h.symm⟩
    unfold topQuality
    split <;> simp

/-- **C74 (partial).** "Online" is reported as soon as a stream is there, at no other time, and withdrawn, after the stream was closed,
at most one and a half back-off intervals later, before anything else happens.  Missing: that it is withdrawn at once, or
within the grace period (`C74_online_violated`). -/
theorem C74_online_partial (M : Nat) (s : Conn) (ts : List Turn) (hm : AtMost M s.backoff ts) (hd : Draws s ts)
    (pre post : List (Nat × Tr)) (t : Nat) (e : Tr) (h : run s ts = pre ++ (t, e) :: post) :
    (e = .established → next post = some (t, .quality .online)) ∧
    (e = .quality .online → pre.getLast? = some (t, .established)) ∧
    (e = .closed → ∀ x, next post = some x → ∃ q, q ≠ .online ∧ x.2 = .quality q ∧ t ≤ x.1 ∧ 2 * x.1 ≤ 2 * t + 3 * M) := by
  induction ts generalizing s pre with
  | nil => simp [run] at h
  | cons u ts ih =>
    obtain ⟨hc, hm'⟩ := turn_most M s u ts hm
    have hnext := next_run (turn s u).1 ts
    simp only [run] at h
    rcases List.append_eq_append_iff.mp h with ⟨as, ha, hb⟩ | ⟨bs, ha, hb⟩
    · -- in the later turns
      have := ih (turn s u).1 hm' hd.2 as hb
      refine ⟨this.1, fun he => ?_, this.2.2⟩
      have h2 := this.2.1 he
      rw [ha, List.getLast?_append, h2]; rfl
    · cases bs with
      | nil =>
        have hb' : run (turn s u).1 ts = [] ++ (t, e) :: post := by simpa using hb.symm
        have := ih (turn s u).1 hm' hd.2 [] hb'
        refine ⟨this.1, fun he => ?_, this.2.2⟩
        have h2 := this.2.1 he
        simp at h2
      | cons b bs =>
        simp only [List.cons_append, List.cons.injEq] at hb
        obtain ⟨hbe, hpost⟩ := hb
        rw [← hbe] at ha
        have hd1 := hd.1
        have hnow : (turn s u).1 = (turn s u).1 := rfl
        unfold turn at ha hnext
        cases hr : u.res with
        | refused =>
          rw [hr] at ha
          simp only at ha
          have he : ∃ q, q ≠ .online ∧ (e = .quality q ∨ e = .start) := by
            have hmem : (t, e) ∈ [(s.now, Tr.quality (topQuality (s.disc.getD s.now) s.now)), (s.now, Tr.start)] := by
              rw [ha]; simp
            simp only [List.mem_cons, List.not_mem_nil, or_false, Prod.mk.injEq] at hmem
            rcases hmem with ⟨_, h⟩ | ⟨_, h⟩
            · exact ⟨_, by unfold topQuality; split <;> simp, .inl h⟩
            · exact ⟨.unknown, by simp, .inr h⟩
          obtain ⟨q, hq, he | he⟩ := he
          · subst he
            refine ⟨fun h => (nomatch h), fun h => ?_, fun h => (nomatch h)⟩
            simp only [Tr.quality.injEq] at h
            exact absurd h hq
          · subst he
            exact ⟨fun h => (nomatch h), fun h => (nomatch h), fun h => (nomatch h)⟩
        | lived life =>
          rw [hr] at ha hnext hd1
          simp only at ha hnext hd1
          have hseq : ([(s.now, Tr.quality (topQuality (s.disc.getD s.now) s.now)), (s.now, Tr.start)] ++
              [(s.now + u.hs, Tr.established), (s.now + u.hs, Tr.quality Quality.online), (s.now + u.hs + life, Tr.closed)])
              = pre ++ (t, e) :: bs := by
            split at ha <;> exact ha
          have htop : topQuality (s.disc.getD s.now) s.now ≠ .online := by unfold topQuality; split <;> simp
          -- which of the five events it is
          match pre, hseq with
          | [], hseq =>
            simp only [List.cons_append, List.nil_append, List.cons.injEq, Prod.mk.injEq] at hseq
            obtain ⟨⟨_, he⟩, _⟩ := hseq
            subst he
            exact ⟨fun h => (nomatch h), fun h => absurd (Tr.quality.inj h) htop, fun h => (nomatch h)⟩
          | [_], hseq =>
            simp only [List.cons_append, List.nil_append, List.cons.injEq, Prod.mk.injEq] at hseq
            obtain ⟨_, ⟨_, he⟩, _⟩ := hseq
            subst he
            exact ⟨fun h => (nomatch h), fun h => (nomatch h), fun h => (nomatch h)⟩
          | [_, _], hseq =>
            simp only [List.cons_append, List.nil_append, List.cons.injEq, Prod.mk.injEq] at hseq
            obtain ⟨_, _, ⟨ht, he⟩, hbs⟩ := hseq
            subst he
            refine ⟨fun _ => ?_, fun h => (nomatch h), fun h => (nomatch h)⟩
            rw [hpost, ← hbs, ← ht]; rfl
          | [_, _, z], hseq =>
            simp only [List.cons_append, List.nil_append, List.cons.injEq, Prod.mk.injEq] at hseq
            obtain ⟨_, _, hz, ⟨ht, he⟩, hbs⟩ := hseq
            subst he
            refine ⟨fun h => (nomatch h), fun _ => ?_, fun h => (nomatch h)⟩
            rw [← hz, ← ht]; rfl
          | [_, _, _, _], hseq =>
            simp only [List.cons_append, List.nil_append, List.cons.injEq, Prod.mk.injEq] at hseq
            obtain ⟨_, _, _, _, ⟨ht, he⟩, hbs⟩ := hseq
            subst he
            refine ⟨fun h => (nomatch h), fun h => (nomatch h), fun _ x hx => ?_⟩
            rw [hpost, ← hbs, List.nil_append] at hx
            have hx' := hnext
            unfold turn at hx
            rw [hr] at hx
            simp only at hx
            obtain ⟨q, hq, hxq⟩ := hx' x hx
            refine ⟨q, hq, by rw [hxq], ?_, ?_⟩
            · rw [hxq]; split <;> (simp only; omega)
            · rw [hxq]
              split
              · simp only; omega
              · rename_i hl
                have hdr := hd1.resolve_left hl
                simp only [Draw] at hdr
                simp only
                omega
          | _ :: _ :: _ :: _ :: _ :: rest, hseq =>
            simp only [List.cons_append, List.nil_append, List.cons.injEq] at hseq
            obtain ⟨_, _, _, _, _, h⟩ := hseq
            simp at h

/-- **C74 (violated).** A stream closed after a second is followed by five minutes in which the quality is still "online", although
the grace period is 15 seconds. -/
theorem C74_online_violated :
    ∃ (s : Conn) (ts : List Turn), AtMost 300000 s.backoff ts ∧ Draws s ts ∧
      run s ts = [(0, .quality .unknown), (0, .start), (0, .established), (0, .quality .online), (1000, .closed),
        (301000, .quality .unknown), (301000, .start)] :=
  ⟨⟨0, ⟨500, 300000, 300000⟩, none⟩, [⟨none, 0, .lived 1000, 300000⟩, ⟨none, 0, .refused, 300000⟩],
    ⟨by decide, by decide, by decide, fun t ht c hc => by
      simp only [List.mem_cons, List.not_mem_nil, or_false] at ht
      rcases ht with rfl | rfl <;> cases hc⟩,
    ⟨.inr (by simp [Draw, applyChange]), by simp [Draw, turn, applyChange, Backoff.bump, minute], trivial⟩, by decide +kernel⟩

/-- An "offline" is reported in the fourth attempt of this history. -/
example : ∃ pre post, run ⟨0, policy 10000 300000, none⟩ [⟨none, 0, .refused, 9000⟩, ⟨none, 0, .refused, 9000⟩, ⟨none, 0, .refused, 20000⟩]
    = pre ++ (18000, .quality .offline) :: post :=
  ⟨[(0, .quality .unknown), (0, .start), (9000, .quality .unknown), (9000, .start)], [(18000, .start)], by decide +kernel⟩

end Verif.Reconn
