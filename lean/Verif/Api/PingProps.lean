import Verif.Api.Ping
import Verif.Api.Stream
/-
C97: pings.
-/
namespace Verif.Ping

/-- The ping interval in force on the current stream, read from the trace (the last first). -/
def asked : List (Nat × Tr) → Option Nat
  | [] => none
  | (_, .hello iv) :: _ => iv
  | (_, .opened) :: _ => none
  | _ :: l => asked l

/-- When the last handshake or pong of the current stream arrived, unless a ping was sent since. -/
def waitingSince : List (Nat × Tr) → Option Nat
  | [] => none
  | (t, .hello _) :: _ => some t
  | (t, .pong) :: _ => some t
  | (_, .ping) :: _ => none
  | (_, .opened) :: _ => none
  | (_, .closed) :: _ => none

/-- The trace obeys the rules: every ping follows a handshake or pong of its stream without a ping in between, by
at least the interval asked for. -/
def Good : List (Nat × Tr) → Prop
  | [] => True
  | (t, .ping) :: l => (∃ p iv, waitingSince l = some p ∧ asked l = some iv ∧ p + iv ≤ t) ∧ Good l
  | _ :: l => Good l

structure Inv (s : St) : Prop where
  good : Good s.tr
  past : ∀ x ∈ s.tr, x.1 ≤ s.now
  iv : s.phase = .active → s.interval = asked s.tr
  some_ : s.phase = .active → ∀ d, s.deadline = some d → ∃ p iv, waitingSince s.tr = some p ∧ asked s.tr = some iv ∧ d = p + iv
  none_ : s.phase = .active → s.deadline = none → asked s.tr = none ∨ waitingSince s.tr = none

theorem inv_init : Inv {} := ⟨trivial, by simp, by simp, by simp, by simp⟩

theorem inv_schedule (top : Nat) (s : St) (hg : Good s.tr) (hp : ∀ x ∈ s.tr, x.1 ≤ s.now) (hi : s.interval = asked s.tr)
    (hw : waitingSince s.tr = some s.now) : Inv (s.schedule top) := by
  unfold St.schedule
  split
  · rename_i h0
    exact ⟨hg, hp, fun _ => hi, (by intro _ d hd; simp at hd), fun _ _ => Or.inl (by rw [← hi]; exact h0)⟩
  · rename_i iv h0
    split
    · refine ⟨hg, hp, fun _ => hi, ?_, (by intro _ hd; simp at hd)⟩
      intro _ d hd
      simp only [Option.some.injEq] at hd
      exact ⟨s.now, iv, hw, by rw [← hi]; exact h0, hd.symm⟩
    · exact ⟨hg, hp, (by intro h; cases h), (by intro h; cases h), (by intro h; cases h)⟩

theorem inv_step (top : Nat) (s : St) (e : Ev) (h : Inv s) : Inv (s.step top e) := by
  cases e with
  | tick d =>
    exact ⟨h.good, fun x hx => Nat.le_trans (h.past x hx) (Nat.le_add_right _ _), h.iv, h.some_, h.none_⟩
  | open_ =>
    simp only [St.step]
    split
    · refine ⟨h.good, ?_, (by intro h; cases h), (by intro h; cases h), (by intro h; cases h)⟩
      intro x hx
      rcases List.mem_cons.1 hx with rfl | hx
      · exact Nat.le_refl _
      · exact h.past x hx
    · exact h
  | hello st =>
    simp only [St.step]
    split
    · apply inv_schedule
      · exact h.good
      · intro x hx
        rcases List.mem_cons.1 hx with rfl | hx
        · exact Nat.le_refl _
        · exact h.past x hx
      · rfl
      · rfl
    · exact h
  | pong =>
    simp only [St.step]
    split
    · rename_i ha
      apply inv_schedule
      · exact h.good
      · intro x hx
        rcases List.mem_cons.1 hx with rfl | hx
        · exact Nat.le_refl _
        · exact h.past x hx
      · exact h.iv ha
      · rfl
    · exact h
  | other => exact h
  | fire ok =>
    simp only [St.step]
    split
    · rename_i ha
      split
      · exact h
      · rename_i d hd
        split
        · rename_i hle
          split
          · obtain ⟨p, iv, h1, h2, h3⟩ := h.some_ ha d hd
            refine ⟨⟨⟨p, iv, h1, h2, by rw [← h3]; exact hle⟩, h.good⟩, ?_, fun hp => ?_, (by intro _ d hd; simp at hd), fun _ _ => Or.inr rfl⟩
            · intro x hx
              rcases List.mem_cons.1 hx with rfl | hx
              · exact Nat.le_refl _
              · exact h.past x hx
            · exact h.iv hp
          · exact ⟨h.good, h.past, (by intro h; cases h), (by intro h; cases h), (by intro h; cases h)⟩
        · exact h
    · exact h
  | closed =>
    simp only [St.step]
    split
    · refine ⟨h.good, ?_, (by intro h; cases h), (by intro h; cases h), (by intro h; cases h)⟩
      intro x hx
      rcases List.mem_cons.1 hx with rfl | hx
      · exact Nat.le_refl _
      · exact h.past x hx
    · exact h

theorem inv_run (top : Nat) : ∀ (es : List Ev) (s : St), Inv s → Inv (s.run top es)
  | [], _, h => h
  | e :: es, s, h => inv_run top es _ (inv_step top s e h)

theorem good_tail : ∀ (a l : List (Nat × Tr)), Good (a ++ l) → Good l
  | [], _, h => h
  | (_, .ping) :: a, l, h => good_tail a l h.2
  | (_, .opened) :: a, l, h => good_tail a l h
  | (_, .hello _) :: a, l, h => good_tail a l h
  | (_, .pong) :: a, l, h => good_tail a l h
  | (_, .closed) :: a, l, h => good_tail a l h

/-- C97 (why and when): before every ping there was, on the same stream, a handshake asking for an interval; the
last thing that happened on the stream before the ping (among handshake, pong, ping) was a handshake or a pong, and
the ping comes at least the interval later. -/
theorem C97_why (top : Nat) (es : List Ev) (a l : List (Nat × Tr)) (t : Nat)
    (h : (St.run top {} es).tr = a ++ (t, .ping) :: l) :
    ∃ p iv, waitingSince l = some p ∧ asked l = some iv ∧ p + iv ≤ t := by
  have := (inv_run top es {} inv_init).good
  rw [h] at this
  exact (good_tail a _ this).1

theorem waitingSince_pong : ∀ (m l : List (Nat × Tr)) (t p : Nat), (∀ x ∈ m, x.2 ≠ .opened) → (∀ x ∈ m, ∀ iv, x.2 ≠ .hello iv) →
    waitingSince (m ++ (t, .ping) :: l) = some p → ∃ m', m = (p, .pong) :: m'
  | [], _, _, _, _, _, h => by simp [waitingSince] at h
  | (u, .pong) :: m, _, _, _, _, _, h => ⟨m, by simp only [List.cons_append, waitingSince, Option.some.injEq] at h; rw [h]⟩
  | (_, .hello iv) :: _, _, _, _, _, h2, _ => absurd rfl (h2 _ (List.mem_cons_self ..) iv)
  | (_, .ping) :: _, _, _, _, _, _, h => by simp [waitingSince] at h
  | (_, .opened) :: _, _, _, _, _, _, h => by simp [waitingSince] at h
  | (_, .closed) :: _, _, _, _, _, _, h => by simp [waitingSince] at h

/-- Without a new handshake the interval stays. -/
theorem asked_app : ∀ (m l : List (Nat × Tr)), (∀ x ∈ m, x.2 ≠ .opened) → (∀ x ∈ m, ∀ iv, x.2 ≠ .hello iv) → asked (m ++ l) = asked l
  | [], _, _, _ => rfl
  | (_, .hello iv) :: _, _, _, h2 => absurd rfl (h2 _ (List.mem_cons_self ..) iv)
  | (_, .opened) :: _, _, h1, _ => absurd rfl (h1 _ (List.mem_cons_self ..))
  | (_, .pong) :: m, l, h1, h2 => asked_app m l (fun x hx => h1 x (List.mem_cons_of_mem _ hx)) (fun x hx => h2 x (List.mem_cons_of_mem _ hx))
  | (_, .ping) :: m, l, h1, h2 => asked_app m l (fun x hx => h1 x (List.mem_cons_of_mem _ hx)) (fun x hx => h2 x (List.mem_cons_of_mem _ hx))
  | (_, .closed) :: m, l, h1, h2 => asked_app m l (fun x hx => h1 x (List.mem_cons_of_mem _ hx)) (fun x hx => h2 x (List.mem_cons_of_mem _ hx))

/-- C97 (spacing): between two pings of a stream the server has answered, and from its answer to the second ping
at least the interval of the handshake has passed; hence no two pings are closer than that, and at most one is
unanswered. -/
theorem C97_spacing (top : Nat) (es : List Ev) (a m l : List (Nat × Tr)) (t₁ t₂ : Nat)
    (h : (St.run top {} es).tr = a ++ (t₂, .ping) :: (m ++ (t₁, .ping) :: l))
    (h1 : ∀ x ∈ m, x.2 ≠ .opened) (h2 : ∀ x ∈ m, ∀ iv, x.2 ≠ .hello iv) :
    ∃ p iv, (p, Tr.pong) ∈ m ∧ asked l = some iv ∧ p + iv ≤ t₂ := by
  obtain ⟨p, iv, hw, ha, hle⟩ := C97_why top es a _ t₂ h
  obtain ⟨m', hm⟩ := waitingSince_pong m l t₁ p h1 h2 hw
  refine ⟨p, iv, by rw [hm]; exact List.mem_cons_self .., ?_, hle⟩
  rw [asked_app m _ h1 h2] at ha
  exact ha

/-- Sorted by time: what is recorded later is not earlier. -/
def Down : List (Nat × Tr) → Prop
  | [] => True
  | x :: l => (∀ y ∈ l, y.1 ≤ x.1) ∧ Down l

theorem down_step (top : Nat) (s : St) (e : Ev) (hi : Inv s) (h : Down s.tr) : Down (s.step top e).tr := by
  have hs : ∀ s : St, (s.schedule top).tr = s.tr := by
    intro s; unfold St.schedule; split; · rfl
    · split <;> rfl
  cases e with
  | tick d => exact h
  | other => exact h
  | open_ => simp only [St.step]; split; · exact ⟨hi.past, h⟩
             · exact h
  | hello st => simp only [St.step]; split; · rw [hs]; exact ⟨hi.past, h⟩
                · exact h
  | pong => simp only [St.step]; split; · rw [hs]; exact ⟨hi.past, h⟩
            · exact h
  | closed => simp only [St.step]; split; · exact ⟨hi.past, h⟩
              · exact h
  | fire ok =>
    simp only [St.step]
    split
    · split
      · exact h
      · split
        · split
          · exact ⟨hi.past, h⟩
          · exact h
        · exact h
    · exact h

theorem down_run (top : Nat) : ∀ (es : List Ev) (s : St), Inv s → Down s.tr → Down (s.run top es).tr
  | [], _, _, h => h
  | e :: es, s, hi, h => down_run top es _ (inv_step top s e hi) (down_step top s e hi h)

theorem down_tail : ∀ (a l : List (Nat × Tr)), Down (a ++ l) → Down l
  | [], _, h => h
  | _ :: a, l, h => down_tail a l h.2

theorem down_mem : ∀ (m : List (Nat × Tr)) (x : Nat × Tr) (l : List (Nat × Tr)), Down (m ++ x :: l) → ∀ y ∈ m, x.1 ≤ y.1
  | z :: m, x, l, h, y, hy => by
    rcases List.mem_cons.1 hy with rfl | hy
    · exact h.1 x (by simp)
    · exact down_mem m x l h.2 y hy

/-- C97 (rate): two pings of one stream are at least the interval apart. -/
theorem C97_rate (top : Nat) (es : List Ev) (a m l : List (Nat × Tr)) (t₁ t₂ : Nat)
    (h : (St.run top {} es).tr = a ++ (t₂, .ping) :: (m ++ (t₁, .ping) :: l))
    (h1 : ∀ x ∈ m, x.2 ≠ .opened) (h2 : ∀ x ∈ m, ∀ iv, x.2 ≠ .hello iv) :
    ∃ iv, asked l = some iv ∧ t₁ + iv ≤ t₂ := by
  obtain ⟨p, iv, hp, ha, hle⟩ := C97_spacing top es a m l t₁ t₂ h h1 h2
  have hd := down_run top es {} inv_init trivial
  rw [h] at hd
  have := down_mem m _ l (down_tail a _ hd).2 _ hp
  exact ⟨iv, ha, by simp only at this; omega⟩

/-- C97 (none): on a stream whose handshake asks for no interval (no settings, no interval in them, or one that is no
duration) there is no ping. -/
theorem C97_none (top : Nat) (es : List Ev) (a m l : List (Nat × Tr)) (t t₀ : Nat)
    (h : (St.run top {} es).tr = a ++ (t, .ping) :: (m ++ (t₀, .hello none) :: l))
    (h1 : ∀ x ∈ m, x.2 ≠ .opened) (h2 : ∀ x ∈ m, ∀ iv, x.2 ≠ .hello iv) : False := by
  obtain ⟨p, iv, _, ha, _⟩ := C97_why top es a _ t h
  rw [asked_app m _ h1 h2] at ha
  simp [asked] at ha

/-- C97 (hello): there is no ping before the handshake of its stream. -/
theorem C97_hello (top : Nat) (es : List Ev) (a m l : List (Nat × Tr)) (t t₀ : Nat)
    (h : (St.run top {} es).tr = a ++ (t, .ping) :: (m ++ (t₀, .opened) :: l)) : ∃ x ∈ m, ∃ iv, x.2 = .hello iv := by
  obtain ⟨p, iv, hw, ha, _⟩ := C97_why top es a _ t h
  clear h hw
  induction m with
  | nil => simp [asked] at ha
  | cons x m ih =>
    obtain ⟨u, k⟩ := x
    cases k with
    | hello iv' => exact ⟨_, List.mem_cons_self .., iv', rfl⟩
    | opened => simp [asked] at ha
    | pong => obtain ⟨y, hy, w⟩ := ih (by simpa [asked] using ha); exact ⟨y, List.mem_cons_of_mem _ hy, w⟩
    | ping => obtain ⟨y, hy, w⟩ := ih (by simpa [asked] using ha); exact ⟨y, List.mem_cons_of_mem _ hy, w⟩
    | closed => obtain ⟨y, hy, w⟩ := ih (by simpa [asked] using ha); exact ⟨y, List.mem_cons_of_mem _ hy, w⟩

/-- In time: every ping exactly the interval after the handshake or pong. -/
def OnTime : List (Nat × Tr) → Prop
  | [] => True
  | (t, .ping) :: l => (∃ p iv, waitingSince l = some p ∧ asked l = some iv ∧ t ≤ p + iv) ∧ OnTime l
  | _ :: l => OnTime l

structure Due (s : St) : Prop where
  inv : Inv s
  ahead : s.phase = .active → ∀ d, s.deadline = some d → s.now ≤ d
  onTime : OnTime s.tr

theorem due_schedule (top : Nat) (s : St) (hi : Inv (s.schedule top)) (ho : OnTime s.tr) : Due (s.schedule top) := by
  refine ⟨hi, ?_, ?_⟩
  · unfold St.schedule
    split
    · intro _ d hd; simp at hd
    · split
      · intro _ d hd
        simp only [Option.some.injEq] at hd
        simp only
        omega
      · intro h; cases h
  · unfold St.schedule
    split
    · exact ho
    · split <;> exact ho

theorem due_step (top : Nat) (s : St) (e : Ev) (h : Due s)
    (hp : ∀ d D, e = .tick d → s.phase = .active → s.deadline = some D → s.now + d ≤ D) : Due (s.step top e) := by
  have hi := inv_step top s e h.inv
  cases e with
  | tick d => exact ⟨hi, fun ha D hD => hp d D rfl ha hD, h.onTime⟩
  | other => exact h
  | open_ =>
    simp only [St.step] at hi ⊢
    split
    · rename_i h0
      rw [if_pos h0] at hi
      exact ⟨hi, (by intro h; cases h), h.onTime⟩
    · exact h
  | hello st =>
    simp only [St.step] at hi ⊢
    split
    · rename_i h0
      rw [if_pos h0] at hi
      exact due_schedule top _ hi h.onTime
    · exact h
  | pong =>
    simp only [St.step] at hi ⊢
    split
    · rename_i h0
      rw [if_pos h0] at hi
      exact due_schedule top _ hi h.onTime
    · exact h
  | closed =>
    simp only [St.step] at hi ⊢
    split
    · rename_i h0
      rw [if_pos h0] at hi
      exact ⟨hi, (by intro h; cases h), h.onTime⟩
    · exact h
  | fire ok =>
    refine ⟨hi, ?_, ?_⟩
    · simp only [St.step]
      split
      · split
        · exact h.ahead
        · split
          · split
            · intro _ d hd; simp at hd
            · intro h; cases h
          · exact h.ahead
      · exact h.ahead
    · simp only [St.step]
      split
      · rename_i ha
        split
        · exact h.onTime
        · rename_i d hd
          split
          · split
            · obtain ⟨p, iv, h1, h2, h3⟩ := h.inv.some_ ha d hd
              have := h.ahead ha d hd
              exact ⟨⟨p, iv, h1, h2, by omega⟩, h.onTime⟩
            · exact h.onTime
          · exact h.onTime
      · exact h.onTime

theorem due_run (top : Nat) : ∀ (es : List Ev) (s : St), Due s → Prompt top s es → Due (s.run top es)
  | [], _, h, _ => h
  | e :: es, s, h, hp => due_run top es _ (due_step top s e h hp.1) hp.2

theorem due_init : Due {} := ⟨inv_init, by simp, trivial⟩

theorem onTime_tail : ∀ (a l : List (Nat × Tr)), OnTime (a ++ l) → OnTime l
  | [], _, h => h
  | (_, .ping) :: a, l, h => onTime_tail a l h.2
  | (_, .opened) :: a, l, h => onTime_tail a l h
  | (_, .hello _) :: a, l, h => onTime_tail a l h
  | (_, .pong) :: a, l, h => onTime_tail a l h
  | (_, .closed) :: a, l, h => onTime_tail a l h

/-- C97 (in time): when the loop is polled in time, a ping is sent exactly the interval after the handshake or the
pong before it, whatever else is sent and received in between. -/
theorem C97_exact (top : Nat) (es : List Ev) (hp : Prompt top {} es) (a l : List (Nat × Tr)) (t : Nat)
    (h : (St.run top {} es).tr = a ++ (t, .ping) :: l) :
    ∃ p iv, waitingSince l = some p ∧ asked l = some iv ∧ t = p + iv := by
  obtain ⟨p, iv, h1, h2, h3⟩ := C97_why top es a l t h
  have := (due_run top es {} due_init hp).onTime
  rw [h] at this
  obtain ⟨p', iv', h1', h2', h3'⟩ := (onTime_tail a _ this).1
  rw [h1] at h1'
  rw [h2] at h2'
  simp only [Option.some.injEq] at h1' h2'
  exact ⟨p, iv, h1, h2, by omega⟩

/-- C97 (not late): when the loop is polled in time, the interval does not pass after a handshake or a pong without a
ping being sent. -/
theorem C97_not_late (top : Nat) (es : List Ev) (hp : Prompt top {} es) (p iv : Nat)
    (ha : (St.run top {} es).phase = .active) (hw : waitingSince (St.run top {} es).tr = some p)
    (hiv : asked (St.run top {} es).tr = some iv) : (St.run top {} es).now ≤ p + iv := by
  have hd := due_run top es {} due_init hp
  cases h : (St.run top {} es).deadline with
  | none =>
    rcases hd.inv.none_ ha h with h' | h'
    · rw [h'] at hiv; cases hiv
    · rw [h'] at hw; cases hw
  | some d =>
    obtain ⟨p', iv', h1, h2, h3⟩ := hd.inv.some_ ha d h
    rw [hw] at h1
    rw [hiv] at h2
    simp only [Option.some.injEq] at h1 h2
    have := hd.ahead ha d h
    omega

/-- C97 (possible): once the interval has passed since the handshake or the pong, the timer sends a ping. -/
theorem C97_sent (top : Nat) (es : List Ev) (p iv : Nat) (ha : (St.run top {} es).phase = .active)
    (hw : waitingSince (St.run top {} es).tr = some p) (hiv : asked (St.run top {} es).tr = some iv)
    (hn : p + iv ≤ (St.run top {} es).now) :
    ((St.run top {} es).step top (.fire true)).tr = ((St.run top {} es).now, .ping) :: (St.run top {} es).tr
      ∧ ((St.run top {} es).step top (.fire true)).phase = .active := by
  have hd := inv_run top es {} inv_init
  cases h : (St.run top {} es).deadline with
  | none =>
    rcases hd.none_ ha h with h' | h'
    · rw [h'] at hiv; cases hiv
    · rw [h'] at hw; cases hw
  | some d =>
    obtain ⟨p', iv', h1, h2, h3⟩ := hd.some_ ha d h
    rw [hw] at h1
    rw [hiv] at h2
    simp only [Option.some.injEq] at h1 h2
    have hle : d ≤ (St.run top {} es).now := by omega
    simp only [St.step, ha, h, if_pos hle, if_true]
    simp

/-- C97 (settings): the interval recorded for a handshake is the one in its settings. -/
theorem C97_settings (top : Nat) (s : St) (h : s.phase = .waiting) (n : Nat) :
    asked (s.step top (.hello (some (some (some n))))).tr = some n
      ∧ asked (s.step top (.hello (some (some none)))).tr = none
      ∧ asked (s.step top (.hello (some none))).tr = none ∧ asked (s.step top (.hello none)).tr = none := by
  have hs : ∀ s : St, (s.schedule top).tr = s.tr := by
    intro s; unfold St.schedule; split; · rfl
    · split <;> rfl
  simp only [St.step, if_pos h, hs]
  exact ⟨rfl, rfl, rfl, rfl⟩

/-- C97, against the full statement: no time after which an unanswered ping closes the stream.  A peer that is gone
is not noticed by the pings. -/
theorem C97_dead_violated (top : Nat) (htop : 5 ≤ top) : ¬ ∃ bound, ∀ es, Prompt top {} es →
    (St.run top {} es).phase = .active → ∀ t l, (St.run top {} es).tr = (t, .ping) :: l → (St.run top {} es).now ≤ t + bound := by
  rintro ⟨b, h⟩
  have hr : St.run top {} [.open_, .hello (some (some (some 5))), .tick 5, .fire true, .tick (b + 1)]
      = { phase := .active, now := 5 + (b + 1), interval := some 5, deadline := none,
          tr := [(5, .ping), (0, .hello (some 5)), (0, .opened)] } := by
    simp [St.run, St.step, St.schedule, intervalOf, htop]
  have := h [.open_, .hello (some (some (some 5))), .tick 5, .fire true, .tick (b + 1)]
    (by simp [Prompt, St.step, St.schedule, intervalOf, htop]) (by rw [hr]) 5 _ (by rw [hr])
  rw [hr] at this
  simp only at this
  omega

theorem now_mono_step (top : Nat) (s : St) (e : Ev) : s.now ≤ (s.step top e).now := by
  have hs : ∀ s : St, (s.schedule top).now = s.now := by
    intro s; unfold St.schedule; split; · rfl
    · split <;> rfl
  cases e with
  | tick d => exact Nat.le_add_right _ _
  | other => exact Nat.le_refl _
  | open_ => simp only [St.step]; split <;> exact Nat.le_refl _
  | hello st => simp only [St.step]; split; · rw [hs]; exact Nat.le_refl _
                · exact Nat.le_refl _
  | pong => simp only [St.step]; split; · rw [hs]; exact Nat.le_refl _
            · exact Nat.le_refl _
  | closed => simp only [St.step]; split <;> exact Nat.le_refl _
  | fire ok =>
    simp only [St.step]
    split
    · split
      · exact Nat.le_refl _
      · split
        · split <;> exact Nat.le_refl _
        · exact Nat.le_refl _
    · exact Nat.le_refl _

theorem now_mono_run (top : Nat) : ∀ (es : List Ev) (s : St), s.now ≤ (s.run top es).now
  | [], _ => Nat.le_refl _
  | e :: es, s => Nat.le_trans (now_mono_step top s e) (now_mono_run top es _)

theorem schedule_fine (top : Nat) (s : St) (h : s.phase ≠ .panicked) (hi : ∀ iv, s.interval = some iv → s.now + iv ≤ top) :
    (s.schedule top).phase ≠ .panicked ∧ (s.schedule top).interval = s.interval := by
  unfold St.schedule
  split
  · exact ⟨h, rfl⟩
  · rename_i iv hiv
    rw [if_pos (hi iv hiv)]
    exact ⟨h, rfl⟩

/-- C97 (no panic, partial): as long as the intervals asked for can be added to the time, the task does not panic. The
full statement has no condition on the intervals. -/
theorem C97_no_panic_partial (top : Nat) : ∀ (es : List Ev) (s : St), s.phase ≠ .panicked →
    (∀ iv, s.interval = some iv → (s.run top es).now + iv ≤ top) →
    (∀ n, Ev.hello (some (some (some n))) ∈ es → (s.run top es).now + n ≤ top) → (s.run top es).phase ≠ .panicked
  | [], _, h, _, _ => h
  | e :: es, s, h, hi, hs => by
    have hm := now_mono_run top (e :: es) s
    have key : ∀ s' : St, s'.phase ≠ .panicked → s'.now = s.now →
        (∀ iv, s'.interval = some iv → ((s.step top e).run top es).now + iv ≤ top) →
        (s'.schedule top).phase ≠ .panicked ∧ (∀ iv, (s'.schedule top).interval = some iv → ((s.step top e).run top es).now + iv ≤ top) := by
      intro s' h' hn hi'
      have hm' : s'.now ≤ ((s.step top e).run top es).now := by rw [hn]; exact hm
      obtain ⟨ha, hb⟩ := schedule_fine top s' h' (fun iv hiv => by have := hi' iv hiv; omega)
      exact ⟨ha, by rw [hb]; exact hi'⟩
    have hstep : (s.step top e).phase ≠ .panicked ∧ (∀ iv, (s.step top e).interval = some iv → ((s.step top e).run top es).now + iv ≤ top) := by
      cases e with
      | tick d => exact ⟨h, hi⟩
      | other => exact ⟨h, hi⟩
      | open_ =>
        by_cases h0 : s.phase = .off
        · have : s.step top .open_ = { s with phase := .waiting, interval := none, deadline := none, tr := (s.now, .opened) :: s.tr } := by
            simp only [St.step, if_pos h0]
          rw [this]
          exact ⟨(by intro h; cases h), (by intro iv h; cases h)⟩
        · have : s.step top .open_ = s := by simp only [St.step, if_neg h0]
          rw [this]
          have hi' : ∀ iv, s.interval = some iv → ((s.step top .open_).run top es).now + iv ≤ top := hi
          rw [this] at hi'
          exact ⟨h, hi'⟩
      | closed =>
        by_cases h0 : s.phase = .active ∨ s.phase = .waiting
        · have : s.step top .closed = { s with phase := .off, tr := (s.now, .closed) :: s.tr } := by
            simp only [St.step, if_pos h0]
          refine ⟨(by rw [this]; intro h; cases h), ?_⟩
          intro iv hiv
          exact hi iv (by rw [this] at hiv; exact hiv)
        · have : s.step top .closed = s := by simp only [St.step, if_neg h0]
          exact ⟨by rw [this]; exact h, fun iv hiv => hi iv (by rw [this] at hiv; exact hiv)⟩
      | hello st =>
        by_cases h0 : s.phase = .waiting
        · have : s.step top (.hello st) = St.schedule top { s with phase := .active, interval := intervalOf st, tr := (s.now, .hello (intervalOf st)) :: s.tr } := by
            simp only [St.step, if_pos h0]
          have := key { s with phase := .active, interval := intervalOf st, tr := (s.now, .hello (intervalOf st)) :: s.tr } (by intro h; cases h) rfl
            (by
              intro iv hiv
              apply hs iv
              have : st = some (some (some iv)) := by
                simp only [intervalOf] at hiv
                split at hiv
                · simp only [Option.some.injEq] at hiv
                  rw [hiv]
                · cases hiv
              rw [this]
              exact List.mem_cons_self ..)
          rename_i he
          rw [← he] at this
          exact this
        · have : s.step top (.hello st) = s := by simp only [St.step, if_neg h0]
          exact ⟨by rw [this]; exact h, fun iv hiv => hi iv (by rw [this] at hiv; exact hiv)⟩
      | pong =>
        by_cases h0 : s.phase = .active
        · have he : s.step top .pong = St.schedule top { s with tr := (s.now, .pong) :: s.tr } := by
            simp only [St.step, if_pos h0]
          have := key { s with tr := (s.now, .pong) :: s.tr } h rfl hi
          rw [← he] at this
          exact this
        · have : s.step top .pong = s := by simp only [St.step, if_neg h0]
          exact ⟨by rw [this]; exact h, fun iv hiv => hi iv (by rw [this] at hiv; exact hiv)⟩
      | fire ok =>
        have : (s.step top (.fire ok)).interval = s.interval ∧ (s.step top (.fire ok)).phase ≠ .panicked := by
          simp only [St.step]
          split
          · split
            · exact ⟨rfl, h⟩
            · split
              · split
                · exact ⟨rfl, h⟩
                · exact ⟨rfl, by intro h; cases h⟩
              · exact ⟨rfl, h⟩
          · exact ⟨rfl, h⟩
        exact ⟨this.2, fun iv hiv => hi iv (by rw [this.1] at hiv; exact hiv)⟩
    exact C97_no_panic_partial top es (s.step top e) hstep.1 hstep.2 (fun n hn => hs n (List.mem_cons_of_mem _ hn))

/-- C97, against the full statement: an interval that the server may send makes the task panic. -/
theorem C97_overflow_violated (top : Nat) :
    (St.run top {} [.open_, .hello (some (some (some (top + 1))))]).phase = .panicked := by
  have : ¬ (top + 1 ≤ top) := by omega
  simp [St.run, St.step, St.schedule, intervalOf, if_neg this]

/-! The timed model refines the ping part of the model of the stream (`Verif.Api.Stream`). -/

open Verif.Api (Api Msg)

/-- The events of the stream model for an event here. -/
def events (s : St) : Ev → List Api.Ev
  | .tick _ => []
  | .other => []
  | .open_ => if s.phase = .off then [.open_ true true] else []
  | .hello st => [.data (some [.handshake (intervalOf st).isSome])] |>.filter fun _ => s.phase = .waiting
  | .pong => [.data (some [.pong])] |>.filter fun _ => s.phase = .active
  | .fire ok => match s.deadline with
    | none => []
    | some d => if d ≤ s.now then [.pingTimer ok] else []
  | .closed => [.closed true, .wake]

def runApi (top : Nat) (s : St) (a : Api) : List Ev → Api
  | [] => a
  | e :: es => runApi top (s.step top e) (a.run (events s e)) es

def phaseOf : Phase → Api.Phase
  | .off => .idle
  | .waiting => .waiting
  | .active => .active
  | .ended => .ended
  | .panicked => .ended

/-- Pings and pongs of the current stream. -/
def current : List (Nat × Tr) → List Tr
  | [] => []
  | (_, .opened) :: _ => []
  | (_, k) :: l => k :: current l

structure Sim (s : St) (a : Api) : Prop where
  phase : a.phase = phaseOf s.phase
  killed : a.killed = false
  iv : s.phase = .active → a.pingInterval = s.interval.isSome
  armed : s.phase = .active → a.pingArmed = s.deadline.isSome
  pings : a.sent.countP (· == .ping) = (current s.tr).countP (· == .ping)
  pongs : a.pongs = (current s.tr).countP (· == .pong)

theorem sim_step (top : Nat) (s : St) (a : Api) (e : Ev) (h : Sim s a) (hq : (s.step top e).phase ≠ .panicked) :
    Sim (s.step top e) (a.run (events s e)) := by
  obtain ⟨h1, h2, h3, h4, h5, h6⟩ := h
  cases e with
  | tick d => exact ⟨h1, h2, h3, h4, h5, h6⟩
  | other => exact ⟨h1, h2, h3, h4, h5, h6⟩
  | open_ =>
    by_cases h0 : s.phase = .off
    · have hp : a.phase = .idle := by rw [h1, h0]; rfl
      simp only [St.step, events, if_pos h0, Api.run, List.foldl, Api.step, hp, h2, if_true, Bool.false_eq_true, if_false]
      exact ⟨rfl, rfl, (by intro h; cases h), (by intro h; cases h), by simp [current], by simp [current]⟩
    · simp only [St.step, events, if_neg h0]
      exact ⟨h1, h2, h3, h4, h5, h6⟩
  | hello st =>
    by_cases h0 : s.phase = .waiting
    · have hp : a.phase = .waiting := by rw [h1, h0]; rfl
      have he : events s (.hello st) = [.data (some [.handshake (intervalOf st).isSome])] := by simp [events, h0]
      rw [he]
      simp only [St.step, if_pos h0] at hq ⊢
      simp only [Api.run, List.foldl, Api.step, hp, Api.respondAll]
      unfold St.schedule at hq ⊢
      simp only at hq ⊢
      cases hiv : intervalOf st with
      | none => exact ⟨rfl, h2, fun _ => rfl, fun _ => rfl, by simpa [current] using h5, by simpa [current] using h6⟩
      | some iv =>
        simp only [hiv] at hq ⊢
        split
        · exact ⟨rfl, h2, fun _ => rfl, fun _ => rfl, by simpa [current] using h5, by simpa [current] using h6⟩
        · rename_i hn
          rw [if_neg hn] at hq
          exact absurd rfl hq
    · have he : events s (.hello st) = [] := by simp [events, h0]
      rw [he]
      simp only [St.step, if_neg h0]
      exact ⟨h1, h2, h3, h4, h5, h6⟩
  | pong =>
    by_cases h0 : s.phase = .active
    · have hp : a.phase = .active := by rw [h1, h0]; rfl
      have he : events s .pong = [.data (some [.pong])] := by simp [events, h0]
      rw [he]
      simp only [St.step, if_pos h0] at hq ⊢
      simp only [Api.run, List.foldl, Api.step, hp, Api.respondAll, Api.respond]
      unfold St.schedule at hq ⊢
      simp only at hq ⊢
      have h3' := h3 h0
      cases hiv : s.interval with
      | none =>
        rw [hiv] at h3'
        exact ⟨by rw [h0]; rfl, h2, fun _ => h3', fun _ => h3', by simpa [current] using h5, by simpa [current] using h6⟩
      | some iv =>
        rw [hiv] at h3'
        simp only [hiv] at hq ⊢
        split
        · exact ⟨by rw [h0]; rfl, h2, fun _ => h3', fun _ => h3', by simpa [current] using h5, by simpa [current] using h6⟩
        · rename_i hn
          rw [if_neg hn] at hq
          exact absurd rfl hq
    · have he : events s .pong = [] := by simp [events, h0]
      rw [he]
      simp only [St.step, if_neg h0]
      exact ⟨h1, h2, h3, h4, h5, h6⟩
  | fire ok =>
    cases hd : s.deadline with
    | none =>
      have hs : s.step top (.fire ok) = s := by
        simp only [St.step, hd]
        split <;> rfl
      have he : events s (.fire ok) = [] := by simp [events, hd]
      rw [hs, he]
      exact ⟨h1, h2, h3, h4, h5, h6⟩
    | some d =>
      by_cases hle : d ≤ s.now
      · have he : events s (.fire ok) = [.pingTimer ok] := by simp [events, hd, hle]
        rw [he]
        by_cases h0 : s.phase = .active
        · have hp : a.phase = .active := by rw [h1, h0]; rfl
          have ha : a.pingArmed = true := by rw [h4 h0, hd]; rfl
          simp only [St.step, if_pos h0, hd, if_pos hle, Api.run, List.foldl, Api.step, hp, ha, if_true]
          cases ok with
          | true =>
            simp only [if_true]
            refine ⟨by rw [h0]; rfl, h2, fun h => h3 h, fun _ => rfl, ?_, ?_⟩
            · rw [List.countP_append, h5]
              simp [current]
            · simpa [current] using h6
          | false =>
            simp only [Bool.false_eq_true, if_false]
            exact ⟨rfl, h2, (by intro h; cases h), (by intro h; cases h), h5, h6⟩
        · have hs : s.step top (.fire ok) = s := by simp only [St.step, if_neg h0]
          have hr : a.run [.pingTimer ok] = a := by
            have : a.phase ≠ .active := by
              rw [h1]; intro hc; apply h0
              cases hq : s.phase <;> rw [hq] at hc <;> first | rfl | cases hc
            simp only [Api.run, List.foldl, Api.step]
          rw [hs, hr]
          exact ⟨h1, h2, h3, h4, h5, h6⟩
      · have hs : s.step top (.fire ok) = s := by
          simp only [St.step, hd, if_neg hle]
          split <;> rfl
        have he : events s (.fire ok) = [] := by simp [events, hd, hle]
        rw [hs, he]
        exact ⟨h1, h2, h3, h4, h5, h6⟩
  | closed =>
    by_cases h0 : s.phase = .active ∨ s.phase = .waiting
    · simp only [St.step, if_pos h0, events, Api.run, List.foldl]
      have hr : (a.step (.closed true)).step .wake = { a.dropPending with phase := .idle } := by
        rcases h0 with h0 | h0
        · have hp : a.phase = .active := by rw [h1, h0]; rfl
          simp [Api.step, hp, Api.dropPending]
        · have hp : a.phase = .waiting := by rw [h1, h0]; rfl
          simp [Api.step, hp, Api.dropPending]
      rw [hr]
      exact ⟨rfl, h2, (by intro h; cases h), (by intro h; cases h), by simpa [current, Api.dropPending] using h5, by simpa [current, Api.dropPending] using h6⟩
    · have hs : s.step top .closed = s := by simp only [St.step, if_neg h0]
      have hr : a.run [.closed true, .wake] = a := by
        cases hq : s.phase with
        | off => have : a.phase = .idle := by rw [h1, hq]; rfl
                 simp [Api.run, Api.step, this]
        | waiting => exact absurd (Or.inr hq) h0
        | active => exact absurd (Or.inl hq) h0
        | ended => have : a.phase = .ended := by rw [h1, hq]; rfl
                   simp [Api.run, Api.step, this]
        | panicked => have : a.phase = .ended := by rw [h1, hq]; rfl
                      simp [Api.run, Api.step, this]
      rw [hs, show events s .closed = [.closed true, .wake] from rfl, hr]
      exact ⟨h1, h2, h3, h4, h5, h6⟩

theorem panicked_stays (top : Nat) : ∀ (es : List Ev) (s : St), s.phase = .panicked → (s.run top es).phase = .panicked
  | [], _, h => h
  | e :: es, s, h => panicked_stays top es _ (by cases e <;> simp [St.step, h])

theorem sim_run (top : Nat) : ∀ (es : List Ev) (s : St) (a : Api), Sim s a → (s.run top es).phase ≠ .panicked →
    Sim (s.run top es) (runApi top s a es)
  | [], _, _, h, _ => h
  | e :: es, s, a, h, hq => sim_run top es _ _
      (sim_step top s a e h (fun hc => hq (panicked_stays top es _ hc))) hq

theorem runApi_run (top : Nat) : ∀ (es : List Ev) (s : St) (a : Api), ∃ l, runApi top s a es = a.run l
  | [], _, _ => ⟨[], rfl⟩
  | e :: es, s, a => by
    obtain ⟨l, hl⟩ := runApi_run top es (s.step top e) (a.run (events s e))
    exact ⟨events s e ++ l, by rw [runApi, hl]; simp only [Api.run, List.foldl_append]⟩

/-- C97 (refinement): whatever the timed stream does without a panic is a run of the model of the stream, with the same
number of pings sent and of pongs received on the current stream. -/
theorem C97_refines (top : Nat) (es : List Ev) (hq : (St.run top {} es).phase ≠ .panicked) :
    ∃ l, let a := (Api.init false).run l
      a.phase = phaseOf (St.run top {} es).phase
      ∧ a.sent.countP (· == .ping) = (current (St.run top {} es).tr).countP (· == .ping)
      ∧ a.pongs = (current (St.run top {} es).tr).countP (· == .pong) := by
  have h := sim_run top es {} (Api.init false) ⟨rfl, rfl, by simp, by simp, rfl, rfl⟩ hq
  obtain ⟨l, hl⟩ := runApi_run top es {} (Api.init false)
  rw [hl] at h
  exact ⟨l, h.phase, h.pings, h.pongs⟩

/-- A run with two pings: the first 10 after the handshake, the second 10 after the pong. -/
example : (St.run 1000 {} [.open_, .tick 3, .hello (some (some (some 10))), .tick 4, .other, .tick 6, .fire true, .tick 2, .pong,
    .fire true, .tick 10, .fire true, .fire true]).tr
    = [(25, .ping), (15, .pong), (13, .ping), (3, .hello (some 10)), (0, .opened)] := by decide

end Verif.Ping
