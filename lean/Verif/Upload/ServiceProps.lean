import Verif.Upload.Service

/-
C124: the rate limit of the upload service over time, and that the service goes on.
-/
namespace Verif.Upload.Service

open Verif.Upload (Limiter Ask Res retryPolicy)

/-- Bytes of the uploads that have been sent at least once. -/
def begun (s : S) : Nat := (s.ups.map fun u => if u.sent = [] then 0 else u.size).sum

/-- Bytes of all attempts. -/
def total (s : S) : Nat := (s.ups.map fun u => u.size * u.sent.length).sum

/-- Uploads of at most `M` bytes, at most `N` bytes per period, periods of at least `P`, at most `R` retries. -/
def Within (N P M R : Nat) : Ev → Prop
  | .start size => size ≤ M
  | .poll _ num per => num ≤ N ∧ P ≤ per
  | .result _ _ mx _ => mx ≤ R
  | _ => True

theorem sum_set (f : Up → Nat) : ∀ (l : List Up) (i : Nat) (c c' : Up), l[i]? = some c → ((l.set i c').map f).sum + f c = (l.map f).sum + f c'
  | [], i, c, c', h => by simp at h
  | x :: l, 0, c, c', h => by
    simp only [List.getElem?_cons_zero, Option.some.injEq] at h
    subst h
    simp only [List.set_cons_zero, List.map_cons, List.sum_cons]; omega
  | x :: l, i + 1, c, c', h => by
    simp only [List.getElem?_cons_succ] at h
    have := sum_set f l i c c' h
    simp only [List.set_cons_succ, List.map_cons, List.sum_cons] at this ⊢; omega

/-- What holds of one upload. -/
def UpOk (M R now su : Nat) (u : Up) : Prop :=
  u.size ≤ M ∧ (∀ t ∈ u.sent, t ≤ now) ∧
  match u.phase with
  | .waiting wake => u.sent = [] ∧ (wake ≤ now ∨ wake ≤ su)
  | .sending a => a ≤ R ∧ u.sent.length = a + 1
  | .backoff a _ => a ≤ R ∧ u.sent.length = a ∧ 0 < a
  | .done _ => u.sent ≠ [] ∧ u.sent.length ≤ R + 1
  | .dropped => u.sent.length ≤ R + 1

structure Inv (N M R : Nat) (s : S) : Prop where
  rem : ∀ r, s.lim.rem = some r → r ≤ N
  ups : ∀ u ∈ s.ups, UpOk M R s.now s.lim.sleepUntil u

theorem acquire_cases (l : Limiter) (a : Ask) :
    (l.sleepUntil < a.now ∧ (l.acquire a).2 = true ∧ (l.acquire a).1.sleepUntil = a.now + a.per ∧
      ((a.num > a.size ∧ (l.acquire a).1.rem = some (a.num - a.size)) ∨ (a.num ≤ a.size ∧ (l.acquire a).1.rem = none))) ∨
    (a.now ≤ l.sleepUntil ∧ (l.acquire a).1.sleepUntil = l.sleepUntil ∧
      ((l.rem = none ∧ (l.acquire a).1.rem = none ∧ (l.acquire a).2 = false) ∨
       (∃ r, l.rem = some r ∧ (l.acquire a).2 = true ∧
        ((r > a.size ∧ (l.acquire a).1.rem = some (r - a.size)) ∨ (r ≤ a.size ∧ (l.acquire a).1.rem = none))))) := by
  by_cases h : l.sleepUntil < a.now
  · left
    by_cases h2 : a.num > a.size
    · simp [Limiter.acquire, Limiter.refills, h, h2]
    · simp [Limiter.acquire, Limiter.refills, h, h2]; omega
  · right
    refine ⟨by omega, ?_⟩
    cases hr : l.rem with
    | none => simp [Limiter.acquire, Limiter.refills, h, hr]
    | some r =>
      by_cases h2 : r > a.size
      · simp [Limiter.acquire, Limiter.refills, h, hr, h2]
      · simp [Limiter.acquire, Limiter.refills, h, hr, h2]; omega

theorem UpOk.later {M R now su : Nat} {u : Up} (h : UpOk M R now su u) {now' su' : Nat} (hn : now ≤ now')
    (hs : su ≤ now' ∨ su ≤ su') : UpOk M R now' su' u := by
  obtain ⟨h1, h2, h3⟩ := h
  refine ⟨h1, fun t ht => Nat.le_trans (h2 t ht) hn, ?_⟩
  cases hp : u.phase with
  | waiting w => rw [hp] at h3; dsimp only at h3 ⊢; exact ⟨h3.1, by omega⟩
  | _ => rw [hp] at h3; exact h3

theorem Inv.set {N M R : Nat} {s : S} (h : Inv N M R s) {i : Nat} {u' : Up} (hu : UpOk M R s.now s.lim.sleepUntil u') :
    Inv N M R { s with ups := s.ups.set i u' } :=
  ⟨h.rem, fun x hx => by
    rcases List.mem_or_eq_of_mem_set hx with hx | rfl
    · exact h.ups x hx
    · exact hu⟩

theorem mem_snoc_le {l : List Nat} {n : Nat} (h : ∀ t ∈ l, t ≤ n) : ∀ t ∈ l ++ [n], t ≤ n := by
  intro t ht
  rcases List.mem_append.1 ht with ht | ht
  · exact h t ht
  · exact Nat.le_of_eq (List.mem_singleton.1 ht)

theorem Inv.step {N P M R : Nat} {s : S} (h : Inv N M R s) {e : Ev} (he : Within N P M R e) : Inv N M R (s.step e) := by
  cases e with
  | tick d => exact ⟨h.rem, fun u hu => (h.ups u hu).later (Nat.le_add_right _ _) (.inr (Nat.le_refl _))⟩
  | start size =>
    refine ⟨h.rem, fun u hu => ?_⟩
    rcases List.mem_append.1 hu with hu | hu
    · exact h.ups u hu
    · rw [List.mem_singleton.1 hu]; exact ⟨he, nofun, rfl, .inl (Nat.le_refl _)⟩
  | poll i num per =>
    dsimp only [S.step]
    split
    · rename_i u hu
      have hok := h.ups u (List.mem_of_getElem? hu)
      split
      · rename_i wake hp
        split
        · obtain ⟨h1, h2, h3⟩ := hok
          rw [hp] at h3
          obtain ⟨hemp, hwk⟩ := h3
          have hsu : s.lim.sleepUntil ≤ s.now ∨ s.lim.sleepUntil ≤ (s.lim.acquire ⟨s.now, u.size, num, per⟩).1.sleepUntil := by
            rcases acquire_cases s.lim ⟨s.now, u.size, num, per⟩ with c | c <;> dsimp only at c <;> omega
          have hrem : ∀ r, (s.lim.acquire ⟨s.now, u.size, num, per⟩).1.rem = some r → r ≤ N := by
            intro r hr
            rcases acquire_cases s.lim ⟨s.now, u.size, num, per⟩ with ⟨_, _, _, c⟩ | ⟨_, _, c⟩
            · rcases c with c | c
              · rw [c.2] at hr; cases hr; have := he.1; dsimp only at c ⊢; omega
              · rw [c.2] at hr; cases hr
            · rcases c with c | ⟨r', hr', _, c⟩
              · rw [c.2.1] at hr; cases hr
              · have := h.rem r' hr'
                rcases c with c | c
                · rw [c.2] at hr; cases hr; omega
                · rw [c.2] at hr; cases hr
          split
          · refine ⟨hrem, fun x hx => ?_⟩
            rcases List.mem_or_eq_of_mem_set hx with hx | rfl
            · exact (h.ups x hx).later (Nat.le_refl _) hsu
            · exact ⟨h1, mem_snoc_le h2, Nat.zero_le _, by simp [Up.send, hemp]⟩
          · refine ⟨hrem, fun x hx => ?_⟩
            rcases List.mem_or_eq_of_mem_set hx with hx | rfl
            · exact (h.ups x hx).later (Nat.le_refl _) hsu
            · exact ⟨h1, h2, hemp, .inr (Nat.le_refl _)⟩
        · exact h
      · exact h
    · exact h
  | result i r mx delay =>
    dsimp only [S.step]
    split
    · rename_i u hu
      obtain ⟨h1, h2, h3⟩ := h.ups u (List.mem_of_getElem? hu)
      split
      · rename_i a hp
        rw [hp] at h3
        obtain ⟨ha, hl⟩ := h3
        refine h.set ⟨h1, h2, ?_⟩
        have hmx : mx ≤ R := he
        have hne : u.sent ≠ [] := fun e => by rw [e] at hl; simp at hl
        by_cases hlt : a < mx
        · by_cases hr : r = .failure
          · have : retryPolicy a mx r = (a + 1, true, false) := by simp [retryPolicy, hlt, hr]
            rw [this]
            exact ⟨by omega, hl, by omega⟩
          · have : retryPolicy a mx r = (a + 1, false, false) := by simp [retryPolicy, hlt, hr]
            rw [this]
            exact ⟨hne, by dsimp only; omega⟩
        · have : retryPolicy a mx r = (a, false, true) := by simp [retryPolicy, hlt]
          rw [this]
          exact ⟨hne, by dsimp only; omega⟩
      · exact h
    · exact h
  | retry i =>
    dsimp only [S.step]
    split
    · rename_i u hu
      obtain ⟨h1, h2, h3⟩ := h.ups u (List.mem_of_getElem? hu)
      split
      · rename_i a wake hp
        rw [hp] at h3
        split
        · exact h.set ⟨h1, mem_snoc_le h2, h3.1, by simp [Up.send, h3.2.1]⟩
        · exact h
      · exact h
    · exact h
  | drop i =>
    dsimp only [S.step]
    split
    · rename_i u hu
      obtain ⟨h1, h2, h3⟩ := h.ups u (List.mem_of_getElem? hu)
      refine h.set ⟨h1, h2, ?_⟩
      cases hp : u.phase <;> rw [hp] at h3 <;> dsimp only at h3 ⊢
      · rw [h3.1]; exact Nat.zero_le _
      · omega
      · omega
      · exact h3
      · exact h3
    · exact h

theorem Inv.run {N P M R : Nat} : ∀ (es : List Ev) {s : S}, Inv N M R s → (∀ e ∈ es, Within N P M R e) → Inv N M R (s.run es)
  | [], _, h, _ => h
  | e :: es, _, h, he => Inv.run es (h.step (he e (.head _))) fun x hx => he x (.tail _ hx)

theorem Inv.new (N M R t num : Nat) (hn : num ≤ N) : Inv N M R (S.new t num) :=
  ⟨fun r hr => by cases hr; exact hn, nofun⟩

/-! ### The bytes let through -/

def used (N M : Nat) (l : Limiter) : Nat := match l.rem with | some r => N - r | none => N + M

/-- Relative to a moment `T` at which `B` bytes had begun: after `w` refills. -/
def Rel (N P M B T : Nat) (s : S) : Prop :=
  ∃ w last, begun s ≤ B + w * (N + M) + used N M s.lim ∧ T ≤ s.now ∧
    (w = 0 ∨ (last ≤ s.now ∧ last + P ≤ s.lim.sleepUntil ∧ T + (w - 1) * (P + 1) ≤ last))

theorem used_le {N M : Nat} (l : Limiter) : used N M l ≤ N + M := by
  unfold used; split <;> omega

theorem begun_set {s : S} {i : Nat} {u : Up} (u' : Up) (hu : s.ups[i]? = some u) (hs : u'.size = u.size) (he : u'.sent = u.sent) (l : Limiter) :
    begun { s with lim := l, ups := s.ups.set i u' } = begun s := by
  have := sum_set (fun u => if u.sent = [] then 0 else u.size) s.ups i u u' hu
  rw [hs, he] at this
  unfold begun; dsimp only; omega

theorem begun_more {s : S} {i : Nat} {u : Up} (u' : Up) (hu : s.ups[i]? = some u) (hs : u'.size = u.size) (he : u.sent = []) (hn : u'.sent ≠ []) (l : Limiter) :
    begun { s with lim := l, ups := s.ups.set i u' } = begun s + u.size := by
  have := sum_set (fun u => if u.sent = [] then 0 else u.size) s.ups i u u' hu
  rw [if_pos he, if_neg hn, hs] at this
  unfold begun; dsimp only; omega

theorem begun_again {s : S} {i : Nat} {u : Up} (u' : Up) (hu : s.ups[i]? = some u) (hs : u'.size = u.size) (he : u.sent ≠ []) (hn : u'.sent ≠ []) (l : Limiter) :
    begun { s with lim := l, ups := s.ups.set i u' } = begun s := by
  have := sum_set (fun u => if u.sent = [] then 0 else u.size) s.ups i u u' hu
  rw [if_neg he, if_neg hn, hs] at this
  unfold begun; dsimp only; omega

theorem Rel.same {N P M B T : Nat} {s s' : S} (h : Rel N P M B T s) (h1 : begun s' = begun s) (h2 : s.now ≤ s'.now) (h3 : s'.lim = s.lim) :
    Rel N P M B T s' := by
  obtain ⟨w, last, a, b, c⟩ := h
  exact ⟨w, last, by rw [h1, h3]; exact a, by omega, by rw [h3]; omega⟩

theorem Rel.step {N P M R B T : Nat} {s : S} (hi : Inv N M R s) (h : Rel N P M B T s) {e : Ev} (he : Within N P M R e) :
    Rel N P M B T (s.step e) := by
  cases e with
  | tick d => exact h.same rfl (Nat.le_add_right _ _) rfl
  | start size => exact h.same (by simp [S.step, begun]) (Nat.le_refl _) rfl
  | poll i num per =>
    dsimp only [S.step]
    split
    · rename_i u hu
      obtain ⟨hM, h2, h3⟩ := hi.ups u (List.mem_of_getElem? hu)
      split
      · rename_i wake hp
        rw [hp] at h3
        obtain ⟨hemp, _⟩ := h3
        split
        · obtain ⟨w, last, hb, ht, hw⟩ := h
          obtain ⟨hnum, hper⟩ := he
          have hmul : (w + 1) * (N + M) = w * (N + M) + (N + M) := by rw [Nat.add_mul, Nat.one_mul]
          have hul := used_le (N := N) (M := M) s.lim
          rcases acquire_cases s.lim ⟨s.now, u.size, num, per⟩ with ⟨c1, c2, c3, c4⟩ | ⟨c1, c3, c4⟩
          · rw [if_pos c2]
            refine ⟨w + 1, s.now, ?_, ht, .inr ⟨Nat.le_refl _, ?_, ?_⟩⟩
            · rw [begun_more (u.send s.now 0) hu rfl hemp (by simp [Up.send])]
              unfold used
              dsimp only at c4 ⊢
              rcases c4 with c4 | c4 <;> rw [c4.2] <;> dsimp only <;> omega
            · dsimp only at c3 ⊢; omega
            · dsimp only at c1
              show T + w * (P + 1) ≤ s.now
              cases w with
              | zero => omega
              | succ w =>
                simp only [Nat.add_sub_cancel] at hw
                have : (w + 1) * (P + 1) = w * (P + 1) + (P + 1) := by rw [Nat.add_mul, Nat.one_mul]
                omega
          · rcases c4 with ⟨d1, d2, d3⟩ | ⟨r, d1, d2, d3⟩
            · rw [if_neg (by rw [d3]; nofun)]
              refine ⟨w, last, ?_, ht, ?_⟩
              · rw [begun_set { u with phase := .waiting (s.lim.acquire ⟨s.now, u.size, num, per⟩).1.sleepUntil } hu rfl rfl]
                unfold used at hb ⊢
                rw [d1] at hb
                dsimp only
                rw [d2]; exact hb
              · dsimp only; rw [c3]; exact hw
            · rw [if_pos d2]
              refine ⟨w, last, ?_, ht, ?_⟩
              · rw [begun_more (u.send s.now 0) hu rfl hemp (by simp [Up.send])]
                have hr := hi.rem r d1
                unfold used at hb ⊢
                rw [d1] at hb
                dsimp only at d3 hb ⊢
                rcases d3 with d3 | d3 <;> rw [d3.2] <;> dsimp only <;> omega
              · dsimp only; rw [c3]; exact hw
        · exact h
      · exact h
    · exact h
  | result i r mx delay =>
    dsimp only [S.step]
    split
    · rename_i u hu
      split
      · exact h.same (begun_set _ hu (by rfl) (by rfl) s.lim) (Nat.le_refl _) rfl
      · exact h
    · exact h
  | retry i =>
    dsimp only [S.step]
    split
    · rename_i u hu
      obtain ⟨_, _, h3⟩ := hi.ups u (List.mem_of_getElem? hu)
      split
      · rename_i a wake hp
        rw [hp] at h3
        split
        · refine h.same (begun_again (u.send s.now a) hu rfl (fun e => ?_) (by simp [Up.send]) s.lim) (Nat.le_refl _) rfl
          have := h3.2
          rw [e] at this
          simp at this; omega
        · exact h
      · exact h
    · exact h
  | drop i =>
    dsimp only [S.step]
    split
    · rename_i u hu
      exact h.same (begun_set _ hu (by rfl) (by rfl) s.lim) (Nat.le_refl _) rfl
    · exact h

theorem Rel.run {N P M R B T : Nat} : ∀ (es : List Ev) {s : S}, Inv N M R s → Rel N P M B T s → (∀ e ∈ es, Within N P M R e) → Rel N P M B T (s.run es)
  | [], _, _, h, _ => h
  | e :: es, _, hi, h, he => Rel.run es (hi.step (he e (.head _))) (h.step hi (he e (.head _))) fun x hx => he x (.tail _ hx)

/-- **C124.** In any stretch of time, the uploads sent for the first time amount to at most the quota and one upload per period begun and for one period
more: whatever the order, the sizes and the number of uploads side by side. -/
theorem C124_rate (N P M R t num : Nat) (es es' : List Ev) (hn : num ≤ N) (h : ∀ e ∈ es ++ es', Within N P M R e) :
    let s := (S.new t num).run es
    let s' := s.run es'
    begun s' ≤ begun s + ((s'.now - s.now) / (P + 1) + 2) * (N + M) := by
  intro s s'
  have hi : Inv N M R s := Inv.run es (Inv.new N M R t num hn) fun e he => h e (List.mem_append_left _ he)
  have hr : Rel N P M (begun s) s.now s' :=
    Rel.run es' hi ⟨0, 0, by omega, Nat.le_refl _, .inl rfl⟩ fun e he => h e (List.mem_append_right _ he)
  obtain ⟨w, last, a, b, c⟩ := hr
  have hu := used_le (N := N) (M := M) s'.lim
  have hw : w ≤ (s'.now - s.now) / (P + 1) + 1 := by
    rcases c with c | ⟨c1, _, c3⟩
    · rw [c]; exact Nat.zero_le _
    · have : (w - 1) ≤ (s'.now - s.now) / (P + 1) := by
        rw [Nat.le_div_iff_mul_le (Nat.succ_pos _)]
        exact Nat.le_sub_of_add_le (by rw [Nat.add_comm]; exact Nat.le_trans c3 c1)
      generalize (s'.now - s.now) / (P + 1) = q at this ⊢
      omega
  generalize (s'.now - s.now) / (P + 1) = q at hw ⊢
  have hm : w * (N + M) ≤ (q + 1) * (N + M) := Nat.mul_le_mul_right _ hw
  have he : (q + 2) * (N + M) = (q + 1) * (N + M) + (N + M) := by
    rw [show q + 2 = q + 1 + 1 from rfl, Nat.add_mul (q + 1), Nat.one_mul]
  omega

theorem total_le_begun (R : Nat) : ∀ (l : List Up), (∀ u ∈ l, u.sent.length ≤ R + 1) →
    (l.map fun u => u.size * u.sent.length).sum ≤ (R + 1) * (l.map fun u => if u.sent = [] then 0 else u.size).sum
  | [], _ => Nat.zero_le _
  | u :: l, h => by
    have ih := total_le_begun R l fun x hx => h x (.tail _ hx)
    have hu := h u (.head _)
    simp only [List.map_cons, List.sum_cons, Nat.mul_add]
    have : u.size * u.sent.length ≤ (R + 1) * (if u.sent = [] then 0 else u.size) := by
      split
      · rename_i e; simp [e]
      · rw [Nat.mul_comm (R + 1)]; exact Nat.mul_le_mul_left _ hu
    omega

theorem sent_le {M R now su : Nat} {u : Up} (h : UpOk M R now su u) : u.sent.length ≤ R + 1 := by
  obtain ⟨_, _, h3⟩ := h
  cases hp : u.phase <;> rw [hp] at h3 <;> dsimp only at h3
  · rw [h3.1]; exact Nat.zero_le _
  · omega
  · omega
  · exact h3.2
  · exact h3

/-- **C124 (partial).** In the long run all attempts together, the repeated ones included, amount to at most the allowed number of attempts times the
quota and one upload for each period.  Missing: that they stay within the quota themselves (`C124_retries_violated`). -/
theorem C124_total_partial (N P M R t num : Nat) (es : List Ev) (hn : num ≤ N) (h : ∀ e ∈ es, Within N P M R e) :
    let s := (S.new t num).run es
    total s ≤ (R + 1) * (((s.now - t) / (P + 1) + 2) * (N + M)) := by
  intro s
  have hi : Inv N M R s := Inv.run es (Inv.new N M R t num hn) h
  have h1 := C124_rate N P M R t num [] es hn (by simpa using h)
  have h2 : begun s ≤ ((s.now - t) / (P + 1) + 2) * (N + M) := by
    have : begun s ≤ begun (S.new t num) + ((s.now - t) / (P + 1) + 2) * (N + M) := h1
    rw [show begun (S.new t num) = 0 from rfl, Nat.zero_add] at this
    exact this
  exact Nat.le_trans (total_le_begun R s.ups fun u hu => sent_le (hi.ups u hu)) (Nat.mul_le_mul_left _ h2)

/-! ### The service goes on -/

/-- **C124.** Once the period of the last refill is over, which is at most the longest period away, whichever of the waiting uploads is polled is
sent; and none of them sleeps longer than that. -/
theorem C124_goes_on (N P M R t num : Nat) (es : List Ev) (hn : num ≤ N) (h : ∀ e ∈ es, Within N P M R e) :
    let s := (S.new t num).run es
    ∀ (i : Nat) (u : Up) (w : Nat), s.ups[i]? = some u → u.phase = .waiting w →
      (w ≤ s.now ∨ w ≤ s.lim.sleepUntil) ∧
      (s.lim.sleepUntil < s.now → ∀ num' per', ∃ u', (s.step (.poll i num' per')).ups[i]? = some u' ∧ u'.sent = [s.now] ∧ u'.size = u.size) := by
  intro s i u w hu hp
  have hi : Inv N M R s := Inv.run es (Inv.new N M R t num hn) h
  obtain ⟨_, _, h3⟩ := hi.ups u (List.mem_of_getElem? hu)
  rw [hp] at h3
  obtain ⟨hemp, hw⟩ := h3
  refine ⟨hw, fun hlt num' per' => ?_⟩
  have hlen : i < s.ups.length := (List.getElem?_eq_some_iff.1 hu).1
  have hacq : (s.lim.acquire ⟨s.now, u.size, num', per'⟩).2 = true := by
    rcases acquire_cases s.lim ⟨s.now, u.size, num', per'⟩ with c | c
    · exact c.2.1
    · dsimp only at c; omega
  refine ⟨u.send s.now 0, ?_, by simp [Up.send, hemp], rfl⟩
  dsimp only [S.step]
  rw [hu]
  dsimp only
  rw [hp]
  dsimp only
  rw [if_pos (by omega), if_pos hacq]
  exact List.getElem?_set_self hlen

/-- The end of the period is never further away than the longest period. -/
theorem C124_period (Q t num : Nat) (es : List Ev) (h : ∀ i n p, Ev.poll i n p ∈ es → p ≤ Q) :
    ((S.new t num).run es).lim.sleepUntil ≤ ((S.new t num).run es).now + Q := by
  have key : ∀ (es : List Ev) (s : S), (∀ i n p, Ev.poll i n p ∈ es → p ≤ Q) → s.lim.sleepUntil ≤ s.now + Q →
      (s.run es).lim.sleepUntil ≤ (s.run es).now + Q := by
    intro es
    induction es with
    | nil => intro s _ h; exact h
    | cons e es ih =>
      intro s h hs
      refine ih (s.step e) (fun i n p hm => h i n p (.tail _ hm)) ?_
      cases e with
      | tick d => show _ ≤ s.now + d + Q; dsimp only [S.step]; omega
      | start size => exact hs
      | poll i n p =>
        have hq := h i n p (.head _)
        dsimp only [S.step]
        split
        · rename_i u hu
          split
          · split
            · have hc : (s.lim.acquire ⟨s.now, u.size, n, p⟩).1.sleepUntil ≤ s.now + Q := by
                rcases acquire_cases s.lim ⟨s.now, u.size, n, p⟩ with c | c
                · rw [c.2.2.1]; exact Nat.add_le_add_left hq _
                · rw [c.2.1]; exact hs
              split <;> exact hc
            · exact hs
          · exact hs
        · exact hs
      | result i r mx delay => dsimp only [S.step]; split <;> (try split) <;> exact hs
      | retry i => dsimp only [S.step]; split <;> (try split) <;> (try split) <;> exact hs
      | drop i => dsimp only [S.step]; split <;> exact hs
  exact key es _ h (Nat.le_add_right _ _)

/-- **C124.** An upload that was dropped, before or after its permit, is over: it neither takes quota nor sends anything any more. -/
theorem C124_dropped (s : S) (i : Nat) (u : Up) (hu : s.ups[i]? = some u) (es : List Ev) :
    ∃ u', ((s.step (.drop i)).run es).ups[i]? = some u' ∧ u'.sent = u.sent ∧ u'.size = u.size ∧
      ((∃ r, u.phase = .done r ∧ u'.phase = .done r) ∨ (∀ r, u.phase ≠ .done r) ∧ u'.phase = .dropped) ∧
      ∀ num per, (s.step (.drop i)).step (.poll i num per) = s.step (.drop i) := by
  have hlt : i < s.ups.length := by
    rcases Nat.lt_or_ge i s.ups.length with h | h
    · exact h
    · rw [List.getElem?_eq_none h] at hu; cases hu
  have key : ∀ (es : List Ev) (s : S) (v : Up), s.ups[i]? = some v → (v.phase = .dropped ∨ ∃ r, v.phase = .done r) →
      (s.run es).ups[i]? = some v := by
    intro es
    induction es with
    | nil => intro s v hv _; exact hv
    | cons e es ih =>
      intro s v hv hp
      refine ih (s.step e) v ?_ hp
      have hl : i < s.ups.length := by
        rcases Nat.lt_or_ge i s.ups.length with h | h
        · exact h
        · rw [List.getElem?_eq_none h] at hv; cases hv
      have hset : ∀ (j : Nat) (x : Up), j ≠ i → (s.ups.set j x)[i]? = some v := fun j x hj => by
        rw [List.getElem?_set_ne hj]; exact hv
      cases e with
      | tick d => exact hv
      | start size => show (s.ups ++ _)[i]? = _; rw [List.getElem?_append_left hl]; exact hv
      | poll j num per =>
        dsimp only [S.step]
        split
        · next w hw =>
          split
          · next k hk =>
            have hj : j ≠ i := fun e => by
              subst e; rw [hv] at hw; cases hw
              rcases hp with hp | ⟨r, hp⟩ <;> rw [hp] at hk <;> cases hk
            split
            · split
              · exact hset _ _ hj
              · exact hset _ _ hj
            · exact hv
          · exact hv
        · exact hv
      | result j r mx delay =>
        dsimp only [S.step]
        split
        · next w hw =>
          split
          · next k hk =>
            have hj : j ≠ i := fun e => by
              subst e; rw [hv] at hw; cases hw
              rcases hp with hp | ⟨r, hp⟩ <;> rw [hp] at hk <;> cases hk
            exact hset _ _ hj
          · exact hv
        · exact hv
      | retry j =>
        dsimp only [S.step]
        split
        · next w hw =>
          split
          · next k k' hk =>
            have hj : j ≠ i := fun e => by
              subst e; rw [hv] at hw; cases hw
              rcases hp with hp | ⟨r, hp⟩ <;> rw [hp] at hk <;> cases hk
            split
            · exact hset _ _ hj
            · exact hv
          · exact hv
        · exact hv
      | drop j =>
        dsimp only [S.step]
        split
        · next w hw =>
          by_cases hj : j = i
          · subst hj
            rw [hv] at hw; cases hw
            rw [List.getElem?_set_self hl]
            obtain ⟨sz, ph, se⟩ := v
            rcases hp with hp | ⟨r, hp⟩ <;> simp only at hp <;> subst hp <;> rfl
          · exact hset _ _ hj
        · exact hv
  have h0 : ∃ v, (s.step (.drop i)).ups[i]? = some v ∧ v.sent = u.sent ∧ v.size = u.size ∧
      ((∃ r, u.phase = .done r ∧ v.phase = .done r) ∨ (∀ r, u.phase ≠ .done r) ∧ v.phase = .dropped) := by
    dsimp only [S.step]
    rw [hu]
    refine ⟨_, List.getElem?_set_self hlt, rfl, rfl, ?_⟩
    cases hp : u.phase <;> simp
  obtain ⟨v, h1, h2, h3, h4⟩ := h0
  have hp : v.phase = .dropped ∨ ∃ r, v.phase = .done r := by
    rcases h4 with ⟨r, _, h⟩ | ⟨_, h⟩
    · exact .inr ⟨r, h⟩
    · exact .inl h
  refine ⟨v, key es _ v h1 hp, h2, h3, h4, fun num per => ?_⟩
  generalize s.step (.drop i) = t at h1
  dsimp only [S.step]
  rw [h1]
  rcases hp with hp | ⟨r, hp⟩ <;> simp [hp]

/-- Dropped while it waits for quota, and dropped during a retry. -/
example :
    let s := (S.new 0 10).run [.tick 1, .start 10, .start 10, .poll 0 10 100, .poll 1 10 100, .result 0 .failure 3 1, .drop 0, .drop 1, .tick 200, .retry 0, .poll 1 10 100]
    s.ups.map (fun u => (u.phase, u.sent)) = [(.dropped, [1]), (.dropped, [])] := by decide

/-- **C124 (violated).** Repeated attempts are not counted: with a quota of 10 bytes in 100 a failing upload of 10 bytes is sent four times, 40 bytes. -/
theorem C124_retries_violated :
    let s := (S.new 0 10).run [.tick 1, .start 10, .poll 0 10 100, .result 0 .failure 3 1, .tick 1, .retry 0, .result 0 .failure 3 1, .tick 1, .retry 0,
      .result 0 .failure 3 1, .tick 1, .retry 0]
    s.now = 4 ∧ s.lim.sleepUntil = 101 ∧ total s = 40 := by decide

/-- A new upload comes right after the end of the period, before the one that waits is polled. -/
def overtake (n : Nat) : List Ev := [.tick 1, .start 10, .poll n 10 100, .poll 0 10 100, .tick 100]

def overtakes : Nat → Nat → List Ev
  | _, 0 => []
  | n, k + 1 => overtake n ++ overtakes (n + 1) k

/-- **C124 (violated).** The permits are not given in order: an upload is held back while later ones are sent, period after period. -/
theorem C124_order_violated (k : Nat) :
    let s := (S.new 0 10).run ([.tick 1, .start 10, .start 10, .poll 1 10 100, .poll 0 10 100, .tick 100] ++ overtakes 2 k)
    s.now = 101 + k * 101 ∧ s.ups.length = k + 2 ∧ (s.ups.map (·.sent.length)) = 0 :: List.replicate (k + 1) 1 := by
  have key : ∀ (k n now : Nat) (s : S), s.now = now → s.lim = ⟨none, now⟩ → s.ups.length = n + 1 →
      (∃ u, s.ups = u :: s.ups.tail ∧ (∃ w, u.phase = .waiting w ∧ w ≤ now) ∧ u.sent = []) → (s.ups.tail.map (·.sent.length)) = List.replicate n 1 →
      (s.run (overtakes (n + 1) k)).now = now + k * 101 ∧ (s.run (overtakes (n + 1) k)).ups.length = n + 1 + k ∧
      ((s.run (overtakes (n + 1) k)).ups.map (·.sent.length)) = 0 :: List.replicate (n + k) 1 := by
    intro k
    induction k with
    | zero =>
      intro n now s h1 h2 h3 ⟨u, h4, _, h5⟩ h6
      refine ⟨by simp [overtakes, S.run, h1], by simp [overtakes, S.run, h3], ?_⟩
      show s.ups.map _ = _
      rw [h4, List.map_cons, h6, h5]; rfl
    | succ k ih =>
      intro n now s h1 h2 h3 ⟨u, h4, ⟨w, hw, hle⟩, h5⟩ h6
      have hrun : s.run (overtakes (n + 1) (k + 1)) = (s.run (overtake (n + 1))).run (overtakes (n + 1 + 1) k) := by
        simp only [S.run, overtakes, List.foldl_append]
      obtain ⟨snow, slim, sups⟩ := s
      dsimp only at h1 h2 h3 h4 h6
      subst h1 h2
      have hl : sups.tail.length = n := by simp; omega
      have hs : (S.mk snow ⟨none, snow⟩ sups).run (overtake (n + 1)) =
          ⟨snow + 101, ⟨none, snow + 101⟩, { u with phase := .waiting (snow + 1 + 100) } :: (sups.tail ++ [⟨10, .sending 0, [snow + 1]⟩])⟩ := by
        have hg : (u :: (sups.tail ++ [(⟨10, .waiting (snow + 1), []⟩ : Up)]))[n + 1]? = some ⟨10, .waiting (snow + 1), []⟩ := by
          rw [List.getElem?_cons_succ, List.getElem?_append_right (by omega), hl, Nat.sub_self]; rfl
        have hset : (u :: (sups.tail ++ [(⟨10, .waiting (snow + 1), []⟩ : Up)])).set (n + 1) ⟨10, .sending 0, [snow + 1]⟩ =
            u :: (sups.tail ++ [⟨10, .sending 0, [snow + 1]⟩]) := by
          rw [List.set_cons_succ, List.set_append_right _ _ (by omega), hl, Nat.sub_self]; rfl
        have e1 : (S.mk snow ⟨none, snow⟩ (u :: sups.tail)).step (.tick 1) = ⟨snow + 1, ⟨none, snow⟩, u :: sups.tail⟩ := rfl
        have e2 : (S.mk (snow + 1) ⟨none, snow⟩ (u :: sups.tail)).step (.start 10) =
            ⟨snow + 1, ⟨none, snow⟩, u :: (sups.tail ++ [⟨10, .waiting (snow + 1), []⟩])⟩ := rfl
        have e3 : (S.mk (snow + 1) ⟨none, snow⟩ (u :: (sups.tail ++ [⟨10, .waiting (snow + 1), []⟩]))).step (.poll (n + 1) 10 100) =
            ⟨snow + 1, ⟨none, snow + 1 + 100⟩, u :: (sups.tail ++ [⟨10, .sending 0, [snow + 1]⟩])⟩ := by
          dsimp only [S.step]
          rw [hg]
          simp only [Limiter.acquire, Limiter.refills, Nat.lt_succ_self, decide_true, if_true, Nat.le_refl, gt_iff_lt, Nat.lt_irrefl, if_false, Up.send,
            List.nil_append]
          rw [hset]
        have e4 : (S.mk (snow + 1) ⟨none, snow + 1 + 100⟩ (u :: (sups.tail ++ [⟨10, .sending 0, [snow + 1]⟩]))).step (.poll 0 10 100) =
            ⟨snow + 1, ⟨none, snow + 1 + 100⟩, { u with phase := .waiting (snow + 1 + 100) } :: (sups.tail ++ [⟨10, .sending 0, [snow + 1]⟩])⟩ := by
          dsimp only [S.step]
          rw [List.getElem?_cons_zero]
          dsimp only
          rw [hw]
          have : ¬ (snow + 1 + 100 < snow + 1) := by omega
          simp only [Limiter.acquire, Limiter.refills, this, decide_false, Bool.false_eq_true, if_false, if_pos (Nat.le_succ_of_le hle), List.set_cons_zero]
        rw [show S.mk snow ⟨none, snow⟩ sups = S.mk snow ⟨none, snow⟩ (u :: sups.tail) from congrArg _ h4]
        show (((((S.mk snow ⟨none, snow⟩ (u :: sups.tail)).step (.tick 1)).step (.start 10)).step (.poll (n + 1) 10 100)).step (.poll 0 10 100)).step (.tick 100) = _
        rw [e1, e2, e3, e4]
        rfl
      rw [hrun, hs]
      have := ih (n + 1) (snow + 101)
        ⟨snow + 101, ⟨none, snow + 101⟩, { u with phase := .waiting (snow + 1 + 100) } :: (sups.tail ++ [⟨10, .sending 0, [snow + 1]⟩])⟩
        rfl rfl (by simp only [List.length_cons, List.length_append, List.length_nil, hl]) ⟨_, rfl, ⟨_, rfl, by omega⟩, h5⟩ (by
        simp only [List.tail_cons, List.map_append, h6, List.map_cons, List.map_nil, List.length_singleton]
        rw [← List.replicate_succ']) 
      refine ⟨by rw [this.1]; omega, by rw [this.2.1]; omega, by rw [this.2.2]; congr 2; omega⟩
  intro s
  have h0 : (S.new 0 10).run [.tick 1, .start 10, .start 10, .poll 1 10 100, .poll 0 10 100, .tick 100] =
      ⟨101, ⟨none, 101⟩, [⟨10, .waiting 101, []⟩, ⟨10, .sending 0, [1]⟩]⟩ := by decide
  have hs : s = (S.mk 101 ⟨none, 101⟩ [⟨10, .waiting 101, []⟩, ⟨10, .sending 0, [1]⟩]).run (overtakes 2 k) := by
    show (S.new 0 10).run (_ ++ _) = _
    rw [← h0]; simp only [S.run, List.foldl_append]
  have := key k 1 101 (S.mk 101 ⟨none, 101⟩ [⟨10, .waiting 101, []⟩, ⟨10, .sending 0, [1]⟩]) rfl rfl rfl ⟨_, rfl, ⟨101, rfl, Nat.le_refl _⟩, rfl⟩ rfl
  rw [hs]
  exact ⟨this.1, by rw [this.2.1]; omega, by rw [this.2.2, Nat.add_comm 1 k]⟩

/-- At the very end of the period the loop goes round without waiting: the permit is refused and the new sleep is over already. -/
theorem C124_spin (s : S) (i : Nat) (u : Up) (w num per : Nat) (hu : s.ups[i]? = some u) (hp : u.phase = .waiting w) (hw : w = s.now)
    (hs : s.lim = ⟨none, s.now⟩) : s.step (.poll i num per) = s := by
  obtain ⟨now, lim, ups⟩ := s
  dsimp only at hu hs hw
  subst hw hs
  dsimp only [S.step]
  rw [hu]
  dsimp only
  rw [hp]
  simp only [Limiter.acquire, Limiter.refills, Nat.lt_irrefl, decide_false, Bool.false_eq_true, if_false, Nat.le_refl, if_true]
  have : { u with phase := Phase.waiting w } = u := by rw [← hp]
  rw [this]
  congr 1
  obtain ⟨hl, he⟩ := List.getElem?_eq_some_iff.1 hu
  rw [← he]; exact List.set_getElem_self hl

/-- The bound of `C124_rate` met by a run with three uploads, one of them held back and sent in the next period, one repeated. -/
example :
    let es : List Ev := [.tick 1, .start 6, .start 7, .start 4, .poll 0 10 100, .poll 1 10 100, .poll 2 10 100, .result 0 .failure 2 5, .tick 5, .retry 0,
      .tick 96, .poll 2 10 100, .result 0 .success 2 5]
    (∀ e ∈ es, Within 10 100 7 2 e) ∧ begun ((S.new 0 10).run es) = 17 ∧ total ((S.new 0 10).run es) = 23 ∧
    ((S.new 0 10).run es).ups.map (·.sent) = [[1, 6], [1], [102]] := by
  refine ⟨?_, by decide, by decide, by decide⟩
  intro e he
  simp only [List.mem_cons, List.not_mem_nil, or_false] at he
  rcases he with rfl | rfl | rfl | rfl | rfl | rfl | rfl | rfl | rfl | rfl | rfl | rfl | rfl <;> simp [Within]

end Verif.Upload.Service
