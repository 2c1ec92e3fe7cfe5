import Verif.Upload.RetryModel

/-
C14 (retries) and C15 (rate limit).
-/
namespace Verif.Upload

/-! ### C14 -/

theorem retryLoop_length (m : Nat) (env : List (Nat × Res)) (h : ∀ e ∈ env, e.1 ≤ m) : ∀ (req : Req) (k : Nat),
    k ≤ m → (retryLoop req k env).made.length ≤ m + 1 - k := by
  induction env with
  | nil => intro req k _; simp [retryLoop]
  | cons e env ih =>
    intro req k hk
    obtain ⟨mx, r⟩ := e
    have hmx : mx ≤ m := h _ List.mem_cons_self
    simp only [retryLoop, retryPolicy]
    by_cases hc : k < mx
    · cases r with
      | failure =>
        simp only [hc, not_true_eq_false, if_false, if_true, decide_true, List.length_cons]
        have := ih (fun e he => h e (by simp [he])) (cloneRequest req) (k + 1) (by omega)
        omega
      | success => simp [hc]; omega
      | canceled => simp [hc]; omega
    · simp [hc]; omega

/-- C14: with a retry limit that is at most `m` whenever it is read, an upload is attempted at most
`m + 1` times. -/
theorem C14_attempts_bounded (req : Req) (m : Nat) (env : List (Nat × Res)) (h : ∀ e ∈ env, e.1 ≤ m) :
    (upload req env).made.length ≤ m + 1 := by
  have := retryLoop_length m env h req 0 (Nat.zero_le _)
  simpa [upload] using this

/-- C14: every attempt but the last failed (so a successful or cancelled attempt is never repeated), every
attempt carries the same identifier and logs, and the result returned is that of the last attempt. -/
theorem C14_retry_only_after_failure (req : Req) (env : List (Nat × Res)) :
    (∀ a ∈ (upload req env).made.dropLast, a.2 = .failure) ∧
    (∀ a ∈ (upload req env).made, a.1 = req) ∧
    (∀ r, (upload req env).final = some r → (upload req env).made.getLast?.map (·.2) = some r) := by
  suffices H : ∀ (env : List (Nat × Res)) (k : Nat),
      (∀ a ∈ (retryLoop req k env).made.dropLast, a.2 = .failure) ∧
      (∀ a ∈ (retryLoop req k env).made, a.1 = req) ∧
      (∀ r, (retryLoop req k env).final = some r → (retryLoop req k env).made.getLast?.map (·.2) = some r) from
    H env 0
  intro env
  induction env with
  | nil => intro k; simp [retryLoop]
  | cons e env ih =>
    intro k
    obtain ⟨mx, r⟩ := e
    simp only [retryLoop, retryPolicy, cloneRequest]
    by_cases hc : k < mx
    · cases r with
      | failure =>
        simp only [hc, not_true_eq_false, if_false, if_true, decide_true]
        obtain ⟨h1, h2, h3⟩ := ih (k + 1)
        refine ⟨?_, ?_, ?_⟩
        · intro a ha
          cases hm : (retryLoop req (k + 1) env).made with
          | nil => rw [hm] at ha; simp at ha
          | cons x xs =>
            rw [hm] at ha h1
            rw [List.dropLast_cons_of_ne_nil (by simp)] at ha
            rcases List.mem_cons.mp ha with rfl | ha
            · rfl
            · exact h1 a ha
        · intro a ha
          rcases List.mem_cons.mp ha with rfl | ha
          · rfl
          · exact h2 a ha
        · intro r hr
          have := h3 r hr
          cases hm : (retryLoop req (k + 1) env).made with
          | nil => rw [hm] at this; simp at this
          | cons x xs => rw [hm] at this; simpa [List.getLast?_cons_cons] using this
      | success => simp [hc]
      | canceled => simp [hc]
    · simp [hc]

/-- C14 (part): logs are counted as dropped only when the upload ended because all retries were used: with
a constant limit `m`, after exactly `m + 1` attempts, all but the last of which failed. -/
theorem C14_dropped_partial (req : Req) (m : Nat) (env : List (Nat × Res)) (h : ∀ e ∈ env, e.1 = m)
    (hd : (upload req env).limitExceeded ≠ 0) :
    (upload req env).made.length = m + 1 ∧ (upload req env).droppedLogs = req.logs.length := by
  suffices H : ∀ (env : List (Nat × Res)), (∀ e ∈ env, e.1 = m) → ∀ k, k ≤ m →
      (retryLoop req k env).limitExceeded ≠ 0 →
      (retryLoop req k env).made.length + k = m + 1 ∧ (retryLoop req k env).droppedLogs = req.logs.length by
    simpa [upload] using H env h 0 (Nat.zero_le _) hd
  intro env
  induction env with
  | nil => intro _ k _ hd; simp [retryLoop] at hd
  | cons e env ih =>
    intro h k hk hd
    obtain ⟨mx, r⟩ := e
    have hmx : mx = m := h _ List.mem_cons_self
    subst hmx
    simp only [retryLoop, retryPolicy, cloneRequest] at hd ⊢
    by_cases hc : k < mx
    · cases r with
      | failure =>
        simp only [hc, not_true_eq_false, if_false, if_true, decide_true] at hd ⊢
        have := ih (fun e he => h e (by simp [he])) (k + 1) (by omega) hd
        simp only [List.length_cons]
        omega
      | success => simp [hc] at hd
      | canceled => simp [hc] at hd
    · have : k = mx := by omega
      simp [hc]; omega

/-- C14, violation: an upload that succeeds on its last allowed attempt is counted as dropped. -/
theorem C14_dropped_violated :
    let req : Req := ⟨"u", [[1], [2]]⟩
    let out := upload req [(1, .failure), (1, .success)]
    out.final = some .success ∧ out.limitExceeded = 1 ∧ out.droppedLogs = 2 := by decide

example :
    let req : Req := ⟨"u", [[1], [2]]⟩
    let out := upload req [(3, .failure), (3, .failure), (3, .success), (3, .success)]
    out.made = [(req, .failure), (req, .failure), (req, .success)] ∧ out.final = some .success ∧
    (upload req [(1, .failure), (1, .failure)]).limitExceeded ≠ 0 := by decide

/-! ### C15 -/

/-- Sizes of the admitted requests. -/
def admittedSizes (vs : List Verdict) : List Nat := (vs.filter (·.admitted)).map (·.ask.size)

theorem run_no_refill (as : List Ask) : ∀ (l : Limiter), (∀ v ∈ l.run as, v.refilled = false) →
    match l.rem with
    | none => admittedSizes (l.run as) = []
    | some q => admittedSizes (l.run as) = [] ∨ (admittedSizes (l.run as)).dropLast = [] ∨
        (admittedSizes (l.run as)).dropLast.sum < q := by
  induction as with
  | nil => intro l _; cases h : l.rem <;> simp [Limiter.run, admittedSizes]
  | cons a as ih =>
    intro l h
    obtain ⟨rem, su⟩ := l
    have hr : (Limiter.mk rem su).refills a = false := by
      have := h ⟨a, (Limiter.mk rem su).refills a, ((Limiter.mk rem su).acquire a).2⟩ (by simp [Limiter.run])
      exact this
    have htail : ∀ v ∈ ((Limiter.mk rem su).acquire a).1.run as, v.refilled = false := fun v hv =>
      h v (by simp [Limiter.run, hv])
    cases rem with
    | none =>
      have hacq : (Limiter.mk none su).acquire a = (⟨none, su⟩, false) := by simp [Limiter.acquire, hr]
      rw [hacq] at htail
      have := ih ⟨none, su⟩ htail
      simp only at this ⊢
      simp only [Limiter.run, hacq, admittedSizes] at this ⊢
      simpa using this
    | some q =>
      simp only
      by_cases hq : q > a.size
      · have hacq : (Limiter.mk (some q) su).acquire a = (⟨some (q - a.size), su⟩, true) := by
          simp [Limiter.acquire, hr, hq]
        rw [hacq] at htail
        have ih' := ih ⟨some (q - a.size), su⟩ htail
        simp only at ih'
        have hrun : admittedSizes ((Limiter.mk (some q) su).run (a :: as)) =
            a.size :: admittedSizes ((Limiter.mk (some (q - a.size)) su).run as) := by
          simp [Limiter.run, hacq, admittedSizes]
        rw [hrun]
        generalize admittedSizes ((Limiter.mk (some (q - a.size)) su).run as) = xs at ih'
        cases xs with
        | nil => simp
        | cons x xs =>
          rw [List.dropLast_cons_of_ne_nil (by simp)]
          rcases ih' with h | h | h
          · simp at h
          · rw [h]; simp; omega
          · simp only [List.sum_cons]; right; right; omega
      · have hacq : (Limiter.mk (some q) su).acquire a = (⟨none, su⟩, true) := by
          simp [Limiter.acquire, hr, hq]
        rw [hacq] at htail
        have ih' := ih ⟨none, su⟩ htail
        simp only at ih'
        have hrun : admittedSizes ((Limiter.mk (some q) su).run (a :: as)) =
            a.size :: admittedSizes ((Limiter.mk none su).run as) := by
          simp [Limiter.run, hacq, admittedSizes]
        rw [hrun, ih']
        simp

/-- C15: in a refill window — a request that refilled the quota to `num` bytes followed by requests that
did not refill — the sizes of the requests let through, without the last one, sum to less than `num`. -/
theorem C15_window (l : Limiter) (first : Ask) (rest : List Ask) (xs : List Nat)
    (hfirst : ∀ v ∈ (l.run (first :: rest)).head?, v.refilled = true)
    (hrest : ∀ v ∈ (l.run (first :: rest)).tail, v.refilled = false)
    (hxs : xs = admittedSizes (l.run (first :: rest))) :
    xs.dropLast = [] ∨ xs.dropLast.sum < first.num := by
  have hr : l.refills first = true := by simpa [Limiter.run] using hfirst
  have hrest' : ∀ v ∈ (l.acquire first).1.run rest, v.refilled = false := by simpa [Limiter.run] using hrest
  have htail := run_no_refill rest _ hrest'
  by_cases hq : first.num > first.size
  · have hacq : l.acquire first = (⟨some (first.num - first.size), first.now + first.per⟩, true) := by
      simp [Limiter.acquire, hr, hq]
    rw [hacq] at htail
    simp only at htail
    have hrun : xs = first.size :: admittedSizes ((Limiter.mk (some (first.num - first.size))
        (first.now + first.per)).run rest) := by
      rw [hxs]; simp [Limiter.run, hacq, admittedSizes]
    rw [hrun]
    generalize admittedSizes ((Limiter.mk (some (first.num - first.size)) (first.now + first.per)).run rest) = ys at *
    cases ys with
    | nil => simp
    | cons y ys =>
      rw [List.dropLast_cons_of_ne_nil (by simp)]
      rcases htail with h | h | h
      · simp at h
      · rw [h]; simp; omega
      · simp only [List.sum_cons]; right; omega
  · have hacq : l.acquire first = (⟨none, first.now + first.per⟩, true) := by
      simp [Limiter.acquire, hr, hq]
    rw [hacq] at htail
    simp only at htail
    have hrun : xs = first.size :: admittedSizes ((Limiter.mk none (first.now + first.per)).run rest) := by
      rw [hxs]; simp [Limiter.run, hacq, admittedSizes]
    rw [hrun, htail]
    simp

theorem acquire_sleepUntil (l : Limiter) (a : Ask) :
    (l.acquire a).1.sleepUntil = if l.refills a then a.now + a.per else l.sleepUntil := by
  unfold Limiter.acquire
  cases l.refills a <;> simp only [Bool.false_eq_true, if_false, if_true] <;> (repeat' split) <;> rfl

def Limiter.final (l : Limiter) : List Ask → Limiter
  | [] => l
  | a :: as => (l.acquire a).1.final as

theorem final_sleepUntil (as : List Ask) : ∀ l : Limiter, (∀ v ∈ l.run as, v.refilled = false) →
    (l.final as).sleepUntil = l.sleepUntil := by
  induction as with
  | nil => intro l _; rfl
  | cons a as ih =>
    intro l h
    have hr : l.refills a = false := h ⟨a, l.refills a, (l.acquire a).2⟩ (by simp [Limiter.run])
    have := ih (l.acquire a).1 (fun v hv => h v (by simp [Limiter.run, hv]))
    simp only [Limiter.final, this, acquire_sleepUntil, hr]
    rfl

/-- C15: two successive refills are more than the period (read at the first of them) apart. -/
theorem C15_refills_apart (l : Limiter) (first last : Ask) (mid : List Ask)
    (h1 : l.refills first = true) (hmid : ∀ v ∈ (l.acquire first).1.run mid, v.refilled = false)
    (h2 : ((l.acquire first).1.final mid).refills last = true) :
    first.now + first.per < last.now := by
  unfold Limiter.refills at h2
  rw [final_sleepUntil mid _ hmid, acquire_sleepUntil, if_pos h1] at h2
  simpa using h2

/-- C15: a request — of any size — that arrives after the end of the period is let through, and a
request is refused only within the period of the last refill and after the quota was used up. -/
theorem C15_no_starvation (l : Limiter) (a : Ask) :
    (l.sleepUntil < a.now → (l.acquire a).2 = true) ∧
    ((l.acquire a).2 = false → a.now ≤ l.sleepUntil ∧ l.rem = none) := by
  constructor
  · intro h
    have : l.refills a = true := by simp [Limiter.refills, h]
    simp only [Limiter.acquire, this, if_true]
    split <;> rfl
  · intro h
    unfold Limiter.acquire at h
    cases hr : l.refills a with
    | true =>
      simp only [hr, if_true] at h
      split at h <;> simp at h
    | false =>
      simp only [hr, Bool.false_eq_true, if_false] at h
      refine ⟨by simpa [Limiter.refills] using hr, ?_⟩
      cases hl : l.rem with
      | none => rfl
      | some q => rw [hl] at h; simp only at h; split at h <;> simp at h

theorem rem_none_used (as : List Ask) : ∀ (l : Limiter) (q : Nat), l.rem = some q →
    (∀ v ∈ l.run as, v.refilled = false) → (l.final as).rem = none →
    q ≤ (admittedSizes (l.run as)).sum := by
  induction as with
  | nil => intro l q hq _ h; simp [Limiter.final, hq] at h
  | cons a as ih =>
    intro l q hq hnr hfin
    obtain ⟨rem, su⟩ := l
    simp only at hq
    subst hq
    have hr : (Limiter.mk (some q) su).refills a = false :=
      hnr ⟨a, (Limiter.mk (some q) su).refills a, ((Limiter.mk (some q) su).acquire a).2⟩ (by simp [Limiter.run])
    have htail : ∀ v ∈ ((Limiter.mk (some q) su).acquire a).1.run as, v.refilled = false := fun v hv =>
      hnr v (by simp [Limiter.run, hv])
    by_cases hc : q > a.size
    · have hacq : (Limiter.mk (some q) su).acquire a = (⟨some (q - a.size), su⟩, true) := by
        simp [Limiter.acquire, hr, hc]
      simp only [Limiter.final, hacq] at hfin htail
      have := ih _ (q - a.size) rfl htail hfin
      have hrun : admittedSizes ((Limiter.mk (some q) su).run (a :: as)) =
          a.size :: admittedSizes ((Limiter.mk (some (q - a.size)) su).run as) := by
        simp [Limiter.run, hacq, admittedSizes]
      rw [hrun, List.sum_cons]
      omega
    · have hacq : (Limiter.mk (some q) su).acquire a = (⟨none, su⟩, true) := by
        simp [Limiter.acquire, hr, hc]
      have hrun : admittedSizes ((Limiter.mk (some q) su).run (a :: as)) =
          a.size :: admittedSizes ((Limiter.mk none su).run as) := by
        simp [Limiter.run, hacq, admittedSizes]
      rw [hrun, List.sum_cons]
      omega

/-- C15: a request is refused in a window only when the bytes already let through in that window reach
the quota — nothing is refused early. -/
theorem C15_refused_only_when_used (l : Limiter) (first a : Ask) (mid : List Ask)
    (h1 : l.refills first = true) (hmid : ∀ v ∈ (l.acquire first).1.run mid, v.refilled = false)
    (h2 : (((l.acquire first).1.final mid).acquire a).2 = false) :
    first.num ≤ (admittedSizes (l.run (first :: mid))).sum := by
  have hrem := ((C15_no_starvation _ a).2 h2).2
  by_cases hq : first.num > first.size
  · have hacq : l.acquire first = (⟨some (first.num - first.size), first.now + first.per⟩, true) := by
      simp [Limiter.acquire, h1, hq]
    rw [hacq] at hmid hrem
    have := rem_none_used mid _ _ rfl hmid hrem
    simp only at this
    have hrun : admittedSizes (l.run (first :: mid)) = first.size :: admittedSizes ((Limiter.mk
        (some (first.num - first.size)) (first.now + first.per)).run mid) := by
      simp [Limiter.run, hacq, admittedSizes]
    rw [hrun, List.sum_cons]
    omega
  · have hacq : l.acquire first = (⟨none, first.now + first.per⟩, true) := by
      simp [Limiter.acquire, h1, hq]
    have hrun : admittedSizes (l.run (first :: mid)) = first.size :: admittedSizes ((Limiter.mk none
        (first.now + first.per)).run mid) := by
      simp [Limiter.run, hacq, admittedSizes]
    rw [hrun, List.sum_cons]
    omega

/-- Quota 10 per 100 ticks: 4, 5 and 100 bytes pass, the next is refused, a huge one passes after the
refill. -/
example :
    ((Limiter.new 0 10).run [⟨1, 4, 10, 100⟩, ⟨2, 5, 10, 100⟩, ⟨3, 100, 10, 100⟩, ⟨4, 1, 10, 100⟩, ⟨102, 999, 10, 100⟩]).map
      (fun v => (v.refilled, v.admitted)) =
    [(true, true), (false, true), (false, true), (false, false), (true, true)] := by decide

end Verif.Upload
