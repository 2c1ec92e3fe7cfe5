import Verif.Session.Model

/-
C19 and C20: session strategies.
-/
namespace Verif.Session

/-! ### Activity-based sessions -/

/-- Calls that are no activity: flushing, asking for the previous identifier, losing the stored
value. -/
def ActOp.passive : ActOp → Bool
  | .flush _ => true
  | .previous => true
  | .lose => true
  | _ => false

theorem Act.run_append (a : Act) (l l' : List ActOp) : a.run (l ++ l') = (a.run l).run l' := by
  induction l generalizing a with
  | nil => rfl
  | cons op l ih => exact ih _

theorem Act.step_threshold (a : Act) (op : ActOp) : (a.step op).1.threshold = a.threshold := by
  cases op with
  | sessionId now wok =>
    have h1 : (a.load now).1.threshold = a.threshold := by
      unfold Act.load
      repeat' split
      all_goals rfl
    refine Eq.trans ?_ h1
    show ((a.load now).1.touch (a.load now).2 now wok).1.threshold = _
    simp only [Act.touch, Act.store]
    repeat' split
    all_goals rfl
  | startNew now wok =>
    simp only [Act.step, Act.startNew, Act.store]
    split <;> rfl
  | flush wok =>
    simp only [Act.step, Act.flush, Act.store]
    repeat' split
    all_goals rfl
  | previous => rfl
  | restart => rfl
  | lose => rfl

theorem Act.run_threshold (ops : List ActOp) : ∀ a : Act, (a.run ops).threshold = a.threshold := by
  induction ops with
  | nil => intro a; rfl
  | cons op ops ih => intro a; exact (ih _).trans (a.step_threshold op)

/-- Passive calls keep the live session. -/
theorem Act.run_passive (mid : List ActOp) (h : ∀ op ∈ mid, op.passive = true) :
    ∀ a : Act, (a.run mid).live = a.live ∧ (a.run mid).uuid = a.uuid := by
  induction mid with
  | nil => intro a; exact ⟨rfl, rfl⟩
  | cons op mid ih =>
    intro a
    have hop := h op (by simp)
    have h1 : (a.step op).1.live = a.live ∧ (a.step op).1.uuid = a.uuid := by
      cases op with
      | flush wok =>
        simp only [Act.step, Act.flush, Act.store]
        cases hl : a.live with
        | none => simp [hl]
        | some l => cases wok <;> simp [hl]
      | previous => exact ⟨rfl, rfl⟩
      | lose => exact ⟨rfl, rfl⟩
      | sessionId => simp [ActOp.passive] at hop
      | startNew => simp [ActOp.passive] at hop
      | restart => simp [ActOp.passive] at hop
    have h2 := ih (fun o ho => h o (by simp [ho])) (a.step op).1
    exact ⟨h2.1.trans h1.1, h2.2.trans h1.2⟩

/-- Every identifier in use is older than the next UUID. -/
def Act.Fresh (a : Act) : Prop :=
  (∀ l, a.live = some l → l.id < a.uuid) ∧ (∀ s, a.disk = some s → s.id < a.uuid)

theorem Act.Fresh.step {a : Act} (h : a.Fresh) (op : ActOp) :
    (a.step op).1.Fresh ∧ a.uuid ≤ (a.step op).1.uuid ∧
      (∀ i, (a.step op).2 = some i → op ≠ .previous → i < (a.step op).1.uuid) := by
  obtain ⟨th, live, disk, uuid⟩ := a
  obtain ⟨h1, h2⟩ := h
  simp only at h1 h2
  cases op with
  | sessionId now wok =>
    have key : ∀ (a : Act) (l : Live), l.id < a.uuid → (∀ s, a.disk = some s → s.id < a.uuid) →
        (a.touch l now wok).1.Fresh ∧ a.uuid ≤ (a.touch l now wok).1.uuid ∧
          (a.touch l now wok).2 < (a.touch l now wok).1.uuid := by
      intro a l hl hd
      simp only [Act.touch, Act.store, Act.Fresh]
      cases wok
      all_goals (repeat' split)
      all_goals simp
      all_goals grind
    simp only [Act.step, Act.sessionId, Act.load]
    cases live with
    | some l =>
      have := key ⟨th, some l, disk, uuid⟩ l (h1 l rfl) h2
      exact ⟨this.1, this.2.1, by simpa using this.2.2⟩
    | none =>
      cases disk with
      | some s =>
        have := key ⟨th, none, some s, uuid⟩ ⟨s.id, some s.id, s.activity, none⟩ (h2 s rfl) h2
        exact ⟨this.1, this.2.1, by simpa using this.2.2⟩
      | none =>
        have := key ⟨th, none, none, uuid + 1⟩ ⟨uuid, none, now, none⟩ (Nat.lt_succ_self _) (by simp)
        exact ⟨this.1, by have := this.2.1; simp at this; simp; omega, by simpa using this.2.2⟩
  | startNew now wok =>
    simp only [Act.step, Act.startNew, Act.store, Act.Fresh]
    cases wok <;> simp_all <;> grind
  | flush wok =>
    simp only [Act.step, Act.flush, Act.store, Act.Fresh]
    cases live <;> cases wok <;> simp_all
  | previous => exact ⟨⟨h1, h2⟩, Nat.le_refl _, by simp⟩
  | restart => exact ⟨⟨by simp [Act.step], h2⟩, Nat.le_refl _, by simp [Act.step]⟩
  | lose => exact ⟨⟨h1, by simp [Act.step]⟩, Nat.le_refl _, by simp [Act.step]⟩

theorem Act.Fresh.run (ops : List ActOp) : ∀ {a : Act}, a.Fresh → (a.run ops).Fresh := by
  induction ops with
  | nil => intro a h; exact h
  | cons op ops ih => intro a h; exact ih (h.step op).1

/-- The identifiers returned by the `session_id` and `start_new_session` calls of a history. -/
def Act.ids (a : Act) : List ActOp → List Nat
  | [] => []
  | .previous :: ops => a.ids ops
  | op :: ops => (a.step op).2.toList ++ (a.step op).1.ids ops

theorem Act.run_uuid (ops : List ActOp) : ∀ {a : Act}, a.Fresh → a.uuid ≤ (a.run ops).uuid := by
  induction ops with
  | nil => intro a _; exact Nat.le_refl _
  | cons op ops ih => intro a h; exact Nat.le_trans (h.step op).2.1 (ih (h.step op).1)

/-- Every identifier returned in a history is older than the next UUID. -/
theorem Act.ids_lt (ops : List ActOp) : ∀ {a : Act}, a.Fresh → ∀ i ∈ a.ids ops, i < (a.run ops).uuid := by
  induction ops with
  | nil => intro a _ i hi; simp [Act.ids] at hi
  | cons op ops ih =>
    intro a h i hi
    by_cases hop : op = .previous
    · subst hop; exact ih h i hi
    · have hs := h.step op
      have hi' : i ∈ (a.step op).2.toList ++ (a.step op).1.ids ops := by
        cases op <;> first | exact absurd rfl hop | exact hi
      rw [List.mem_append] at hi'
      rcases hi' with hi' | hi'
      · rw [Option.mem_toList] at hi'
        exact Nat.lt_of_lt_of_le (hs.2.2 i hi' hop) (Act.run_uuid ops hs.1)
      · exact ih hs.1 i hi'

/-- An activity at `t`: `session_id` or `start_new_session`. -/
inductive Activity : ActOp → Int → Prop
  | sessionId (t : Int) (wok : Bool) : Activity (.sessionId t wok) t
  | startNew (t : Int) (wok : Bool) : Activity (.startNew t wok) t

/-- After an activity the live session has the returned identifier and that activity time. -/
theorem Act.after_activity (a : Act) {op : ActOp} {t : Int} (h : Activity op t) :
    ∃ l, (a.step op).1.live = some l ∧ (a.step op).2 = some l.id ∧ l.activity = t := by
  cases h with
  | sessionId t wok =>
    simp only [Act.step, Act.sessionId, Act.touch]
    split
    · exact ⟨{ (a.load t).2 with id := (a.load t).1.uuid, activity := t, write := some t }, rfl, rfl, rfl⟩
    · split
      · exact ⟨{ (a.load t).2 with activity := t, write := some t }, rfl, rfl, rfl⟩
      · split
        · exact ⟨{ (a.load t).2 with activity := t, write := some t }, rfl, rfl, rfl⟩
        · exact ⟨{ (a.load t).2 with activity := t }, rfl, rfl, rfl⟩
  | startNew t wok => exact ⟨_, rfl, rfl, rfl⟩

/-- `session_id` when a session is live. -/
theorem Act.sessionId_live (a : Act) (l : Live) (h : a.live = some l) (now : Int) (wok : Bool) :
    (a.sessionId now wok).2 =
      if now < l.activity ∨ now - l.activity > a.threshold then a.uuid else l.id := by
  simp only [Act.sessionId, Act.load, Act.touch, h]
  by_cases c1 : now < l.activity
  · simp [c1]
  · by_cases c2 : now - l.activity > a.threshold
    · simp [c2]
    · simp only [c1, c2, decide_false, Bool.or_self, Bool.false_eq_true, if_false, or_self]
      repeat' split
      all_goals rfl

/-- C19 (within a process).  After any history, between an activity at `t₁` that returned `i` and the
next `session_id` call at `t₂` (with only flushes, queries and storage losses in between) the
identifier changes exactly when the clock went backwards or more than the threshold has passed; and a
changed identifier was never used before. -/
theorem C19_changes_exactly (threshold : Int) (ops mid : List ActOp) (act : ActOp) (t₁ t₂ : Int)
    (wok : Bool) (i j : Nat) (hact : Activity act t₁) (hmid : ∀ op ∈ mid, op.passive = true) :
    let a := (Act.new threshold).run ops
    let b := ((a.step act).1.run mid)
    (a.step act).2 = some i → (b.step (.sessionId t₂ wok)).2 = some j →
    (i ≠ j ↔ t₂ < t₁ ∨ t₂ - t₁ > threshold) ∧
      (i ≠ j → j ∉ (Act.new threshold).ids (ops ++ [act] ++ mid)) := by
  intro a b hi hj
  obtain ⟨l, hl, hr, ht⟩ := a.after_activity hact
  have hfr : a.Fresh := Act.Fresh.run ops (a := Act.new threshold) ⟨by simp [Act.new], by simp [Act.new]⟩
  have hfr' := (hfr.step act).1
  have hp := Act.run_passive mid hmid (a.step act).1
  have hlive : b.live = some l := by rw [← hl]; exact hp.1
  have hil : i = l.id := by rw [hr] at hi; simpa using hi.symm
  have hth : b.threshold = threshold := by
    have := Act.run_threshold mid (a.step act).1
    rw [a.step_threshold act] at this
    rw [show b.threshold = a.threshold from this]
    exact Act.run_threshold ops (Act.new threshold)
  have hlt : l.id < b.uuid := by
    rw [show b.uuid = (a.step act).1.uuid from hp.2]; exact hfr'.1 l hl
  simp only [Act.step, Option.some.injEq] at hj
  rw [Act.sessionId_live b l hlive t₂ wok, ht, hth] at hj
  subst hil
  split at hj
  · rename_i hc
    refine ⟨⟨fun _ => hc, fun _ => by omega⟩, fun _ hin => ?_⟩
    have := Act.ids_lt (ops ++ [act] ++ mid) (a := Act.new threshold)
      ⟨by simp [Act.new], by simp [Act.new]⟩ j hin
    rw [Act.run_append, Act.run_append] at this
    exact absurd this (by rw [← hj]; exact Nat.lt_irrefl _)
  · rename_i hc
    refine ⟨⟨fun h => absurd hj h, fun h => absurd h hc⟩, fun h => absurd hj h⟩

/-- C19: `start_new_session` always returns an identifier not returned before. -/
theorem C19_start_new_is_new (threshold : Int) (ops : List ActOp) (t : Int) (wok : Bool) :
    let a := (Act.new threshold).run ops
    ∃ i, (a.step (.startNew t wok)).2 = some i ∧ i ∉ (Act.new threshold).ids ops := by
  intro a
  refine ⟨a.uuid, rfl, fun hin => ?_⟩
  have := Act.ids_lt ops (a := Act.new threshold) ⟨by simp [Act.new], by simp [Act.new]⟩ _ hin
  exact Nat.lt_irrefl _ this

/-- Every storage write of the call succeeds and the stored value stays readable. -/
def ActOp.stored : ActOp → Bool
  | .sessionId _ wok => wok
  | .startNew _ wok => wok
  | .flush wok => wok
  | .lose => false
  | _ => true

/-- The stored session is the live one, and its activity time is at most 15 s behind. -/
def Act.Synced (a : Act) : Prop :=
  ∀ l, a.live = some l → ∃ s w, a.disk = some s ∧ s.id = l.id ∧ l.write = some w ∧ w ≤ s.activity ∧
    s.activity ≤ l.activity ∧ l.activity - w ≤ maxWrite

theorem Act.Synced.step {a : Act} (h : a.Synced) (op : ActOp) (ho : op.stored = true) :
    (a.step op).1.Synced := by
  obtain ⟨th, live, disk, uuid⟩ := a
  unfold Act.Synced at *
  simp only at h
  have hmax : (0 : Int) ≤ maxWrite := by decide
  cases op with
  | sessionId now wok =>
    simp only [ActOp.stored] at ho
    subst ho
    simp only [Act.step, Act.sessionId, Act.load, Act.touch, Act.store]
    cases live with
    | some l =>
      obtain ⟨s, w, hs, hid, hw, h1, h2, h3⟩ := h l rfl
      obtain ⟨lid, lprev, lact, lw⟩ := l
      simp only at hid hw h2 h3
      subst hs
      simp only [hw]
      split
      · intro l' hl'
        simp at hl'
        subst hl'
        exact ⟨_, _, rfl, rfl, rfl, Int.le_refl _, Int.le_refl _, by simp; exact hmax⟩
      · rename_i hc
        have hc' : ¬ now < lact := fun h => hc (by simp [h])
        split
        · intro l' hl'
          simp at hl'
          subst hl'
          exact ⟨_, _, rfl, rfl, rfl, Int.le_refl _, Int.le_refl _, by simp; exact hmax⟩
        · rename_i hd
          simp at hd
          intro l' hl'
          simp at hl'
          subst hl'
          exact ⟨s, w, rfl, hid, rfl, h1, by simp; omega, by simp; omega⟩
    | none =>
      cases disk with
      | some s =>
        simp only
        split
        · intro l' hl'
          simp at hl'
          subst hl'
          exact ⟨_, _, rfl, rfl, rfl, Int.le_refl _, Int.le_refl _, by simp; exact hmax⟩
        · intro l' hl'
          simp at hl'
          subst hl'
          exact ⟨_, _, rfl, rfl, rfl, Int.le_refl _, Int.le_refl _, by simp; exact hmax⟩
      | none =>
        simp only
        split
        · intro l' hl'
          simp at hl'
          subst hl'
          exact ⟨_, _, rfl, rfl, rfl, Int.le_refl _, Int.le_refl _, by simp; exact hmax⟩
        · intro l' hl'
          simp at hl'
          subst hl'
          exact ⟨_, _, rfl, rfl, rfl, Int.le_refl _, Int.le_refl _, by simp; exact hmax⟩
  | startNew now wok =>
    simp only [ActOp.stored] at ho
    subst ho
    simp only [Act.step, Act.startNew, Act.store]
    intro l' hl'
    simp at hl'
    subst hl'
    exact ⟨_, _, rfl, rfl, rfl, Int.le_refl _, Int.le_refl _, by simp; exact hmax⟩
  | flush wok =>
    simp only [ActOp.stored] at ho
    subst ho
    simp only [Act.step, Act.flush, Act.store]
    cases live with
    | none => simp
    | some l =>
      obtain ⟨s, w, hs, hid, hw, h1, h2, h3⟩ := h l rfl
      intro l' hl'
      simp at hl'
      subst hl'
      exact ⟨_, w, rfl, rfl, hw, by simp; omega, Int.le_refl _, h3⟩
  | previous => exact h
  | restart => intro l hl; simp [Act.step] at hl
  | lose => simp [ActOp.stored] at ho

theorem Act.Synced.run (ops : List ActOp) (ho : ∀ op ∈ ops, op.stored = true) :
    ∀ {a : Act}, a.Synced → (a.run ops).Synced := by
  induction ops with
  | nil => intro a h; exact h
  | cons op ops ih =>
    intro a h
    exact ih (fun o h' => ho o (by simp [h'])) (h.step op (ho op (by simp)))

/-- C19 (disk).  If storage works, after any activity the identifier on disk is the one just returned,
and it stays there until the next activity; the recorded activity time is not in the future and at
most 15 seconds old. -/
theorem C19_disk_is_last_returned (threshold : Int) (ops mid : List ActOp) (act : ActOp) (t : Int)
    (i : Nat) (hact : Activity act t) (hops : ∀ op ∈ ops ++ [act] ++ mid, op.stored = true)
    (hmid : ∀ op ∈ mid, op.passive = true) :
    let a := (Act.new threshold).run ops
    (a.step act).2 = some i →
    ∃ s, ((a.step act).1.run mid).disk = some s ∧ s.id = i ∧ s.activity ≤ t ∧ t - s.activity ≤ maxWrite := by
  intro a hi
  obtain ⟨l, hl, hr, ht⟩ := a.after_activity hact
  have hsync : ((Act.new threshold).run (ops ++ [act] ++ mid)).Synced :=
    Act.Synced.run _ hops (a := Act.new threshold) (by intro l hl; simp [Act.new] at hl)
  rw [Act.run_append, Act.run_append] at hsync
  have hp := Act.run_passive mid hmid (a.step act).1
  obtain ⟨s, w, h1, h2, h3, h4, h5, h6⟩ := hsync l (hp.1.trans hl)
  refine ⟨s, h1, ?_, ?_, ?_⟩
  · rw [hr] at hi; rw [h2]; simpa using hi
  · omega
  · omega

/-- C19 (restart).  If storage works, the first `session_id` call (at `t₂`) of a new process continues
the session of the last activity (at `t₁`, identifier `i`) when it comes within the threshold of the
recorded activity `r`, where `r` is at most 15 s before `t₁`; it is a new session otherwise. -/
theorem C19_restart (threshold : Int) (ops mid : List ActOp) (act : ActOp) (t₁ t₂ : Int)
    (wok : Bool) (i j : Nat) (hact : Activity act t₁) (hops : ∀ op ∈ ops ++ [act] ++ mid, op.stored = true)
    (hmid : ∀ op ∈ mid, op.passive = true) :
    let a := (Act.new threshold).run ops
    let b := (((a.step act).1.run mid).step .restart).1
    (a.step act).2 = some i → (b.step (.sessionId t₂ wok)).2 = some j →
    ∃ r, r ≤ t₁ ∧ t₁ - r ≤ maxWrite ∧ (i = j ↔ r ≤ t₂ ∧ t₂ - r ≤ threshold) := by
  intro a b hi hj
  obtain ⟨s, h1, h2, h3, h4⟩ := C19_disk_is_last_returned threshold ops mid act t₁ i hact hops hmid hi
  have hfr : a.Fresh := Act.Fresh.run ops (a := Act.new threshold) ⟨by simp [Act.new], by simp [Act.new]⟩
  have hfr2 : ((a.step act).1.run mid).Fresh := Act.Fresh.run mid (hfr.step act).1
  have hlt : s.id < b.uuid := hfr2.2 s h1
  have hth : b.threshold = threshold := by
    show ((a.step act).1.run mid).threshold = threshold
    rw [Act.run_threshold, a.step_threshold]
    exact Act.run_threshold ops _
  have hdisk : b.disk = some s := h1
  have hlive : b.live = none := rfl
  refine ⟨s.activity, h3, h4, ?_⟩
  simp only [Act.step, Act.sessionId, Act.load, Act.touch, hlive, hdisk, Option.some.injEq, hth] at hj
  subst h2
  by_cases c1 : t₂ < s.activity
  · simp [c1] at hj
    constructor
    · intro h; omega
    · intro h; omega
  · by_cases c2 : t₂ - s.activity > threshold
    · simp [c1, c2] at hj
      constructor
      · intro h; omega
      · intro h; omega
    · simp [c1, c2] at hj
      exact ⟨fun _ => ⟨by omega, by omega⟩, fun _ => hj⟩

/-- A concrete history for the four theorems: threshold 30 s, a session at 1 s, a flush, a restart,
a call at 20 s (same session) and one at 60 s (new session). -/
example :
    let s : Int := 1000000000
    let a := ((Act.new (30 * s)).run []).step (.sessionId s true)
    let b := ((a.1.run [.flush true]).step .restart).1
    a.2 = some 0 ∧ (b.step (.sessionId (20 * s) true)).2 = some 0 ∧
    (((b.step (.sessionId (20 * s) true)).1).step (.sessionId (60 * s) true)).2 = some 1 := by decide

/-! ### Fixed sessions -/

/-- Neither a restart nor a request for a new session. -/
def FixedOp.keeps : FixedOp → Bool
  | .restart => false
  | .startNew _ _ => false
  | _ => true

theorem Fixed.run_append (f : Fixed) (l l' : List FixedOp) : f.run (l ++ l') = (f.run l).run l' := by
  induction l generalizing f with
  | nil => rfl
  | cons op l ih => exact ih _

theorem Fixed.keep_live (mid : List FixedOp) (h : ∀ op ∈ mid, op.keeps = true) :
    ∀ (f : Fixed) (l : FLive), f.live = some l → (f.run mid).live = some l := by
  induction mid with
  | nil => intro f l hl; exact hl
  | cons op mid ih =>
    intro f l hl
    refine ih (fun o ho => h o (by simp [ho])) _ l ?_
    have hop := h op (by simp)
    cases op with
    | sessionId gen wok => simp [Fixed.step, Fixed.sessionId, hl]
    | sessionIdInCallback gen => exact hl
    | startNew gen wok => simp [FixedOp.keeps] at hop
    | startNewInCallback => exact hl
    | previous => exact hl
    | restart => simp [FixedOp.keeps] at hop
    | lose => exact hl

/-- C20: the identifier returned by `session_id` or `start_new_session` is returned by every later
`session_id` call of the process, until a new session is requested. -/
theorem C20_stable (f : Fixed) (ops mid : List FixedOp) (op : FixedOp) (i j : Nat) (gen : Nat) (wok : Bool)
    (hop : (∃ g w, op = .sessionId g w) ∨ (∃ g w, op = .startNew g w))
    (hmid : ∀ o ∈ mid, o.keeps = true) :
    let a := f.run ops
    (a.step op).2 = some i → (((a.step op).1.run mid).step (.sessionId gen wok)).2 = some j → i = j := by
  intro a hi hj
  have hl : ∃ l, (a.step op).1.live = some l ∧ l.id = i := by
    rcases hop with ⟨g, w, rfl⟩ | ⟨g, w, rfl⟩
    · simp only [Fixed.step, Fixed.sessionId] at hi ⊢
      cases hal : a.live with
      | none => simp [hal] at hi ⊢; exact hi
      | some l => simp [hal] at hi ⊢; exact hi
    · simp only [Fixed.step, Fixed.startNew] at hi ⊢
      simp at hi ⊢; exact hi
  obtain ⟨l, hl, hli⟩ := hl
  have := Fixed.keep_live mid hmid _ l hl
  have hj' : (((a.step op).1.run mid).sessionId gen wok).2 = j := by
    simpa only [Fixed.step, Option.some.injEq] using hj
  rw [← hli, ← hj']
  generalize (a.step op).1.run mid = b at this
  simp [Fixed.sessionId, this]

/-- `restart` does not occur and the stored value is not lost. -/
def FixedOp.inProcess : FixedOp → Bool
  | .restart => false
  | .lose => false
  | _ => true

theorem Fixed.previous_step (f : Fixed) (op : FixedOp) (h : op.inProcess = true) :
    (f.step op).1.previous = f.previous := by
  obtain ⟨live, disk⟩ := f
  cases op with
  | sessionId gen wok => cases live <;> rfl
  | sessionIdInCallback gen => rfl
  | startNew gen wok => cases live <;> rfl
  | startNewInCallback => rfl
  | previous => rfl
  | restart => simp [FixedOp.inProcess] at h
  | lose => simp [FixedOp.inProcess] at h

/-- C20: within a process the reported previous identifier never changes. -/
theorem C20_previous_constant (f : Fixed) (mid : List FixedOp) (h : ∀ o ∈ mid, o.inProcess = true) :
    (f.run mid).previous = f.previous := by
  induction mid generalizing f with
  | nil => rfl
  | cons op mid ih =>
    have := ih (f.step op).1 (fun o ho => h o (by simp [ho]))
    exact this.trans (f.previous_step op (h op (by simp)))

/-- The last identifier handed out by `session_id` or `start_new_session` (not from inside the
callback) in a history, scanning the results returned. -/
def lastId (f : Fixed) : List FixedOp → Option Nat → Option Nat
  | [], acc => acc
  | op :: ops, acc =>
    lastId (f.step op).1 ops (match op with
      | .sessionId _ _ => (f.step op).2
      | .startNew _ _ => (f.step op).2
      | _ => acc)

/-- Storage writes succeed and nothing is lost. -/
def FixedOp.stored : FixedOp → Bool
  | .sessionId _ wok => wok
  | .startNew _ wok => wok
  | .lose => false
  | _ => true

theorem Fixed.disk_is_last (ops : List FixedOp) (h : ∀ o ∈ ops, o.stored = true) :
    ∀ (f : Fixed) (acc : Option Nat), f.disk = acc → (∀ l, f.live = some l → some l.id = acc) →
      (f.run ops).disk = lastId f ops acc := by
  induction ops with
  | nil => intro f acc hd _; exact hd
  | cons op ops ih =>
    intro f acc hd hl
    have hop := h op (by simp)
    refine ih (fun o ho => h o (by simp [ho])) _ _ ?_ ?_
    · cases op with
      | sessionId gen wok =>
        simp only [FixedOp.stored] at hop
        subst hop
        simp only [Fixed.step, Fixed.sessionId]
        cases hlv : f.live with
        | none => rfl
        | some l => simp [hd, hl l hlv]
      | startNew gen wok =>
        simp only [FixedOp.stored] at hop
        subst hop
        rfl
      | lose => simp [FixedOp.stored] at hop
      | _ => exact hd
    · intro l hl'
      cases op with
      | sessionId gen wok =>
        simp only [Fixed.step, Fixed.sessionId] at hl' ⊢
        cases hlv : f.live with
        | none => rw [hlv] at hl'; simp at hl' ⊢; rw [← hl']
        | some l2 => rw [hlv] at hl'; simp at hl' ⊢; rw [hlv] at hl'; simp at hl'; rw [hl']
      | startNew gen wok =>
        simp only [Fixed.step, Fixed.startNew] at hl' ⊢
        simp at hl' ⊢; rw [← hl']
      | restart => simp [Fixed.step] at hl'
      | lose => simp [FixedOp.stored] at hop
      | _ => exact hl l hl'

/-- C20: after a restart the previous identifier reported — by the first query and every later one in
that process — is the last identifier handed out before the restart (by the latest process that asked
for one). -/
theorem C20_previous_is_last (ops mid : List FixedOp) (h : ∀ o ∈ ops, o.stored = true)
    (hmid : ∀ o ∈ mid, o.inProcess = true) :
    let f₀ : Fixed := ⟨none, none⟩
    (((f₀.run (ops ++ [.restart])).run mid).step .previous).2 = lastId f₀ ops none := by
  intro f₀
  simp only [Fixed.step]
  rw [C20_previous_constant _ mid hmid, Fixed.run_append]
  show Fixed.previous { (f₀.run ops) with live := none } = _
  simp only [Fixed.previous]
  exact Fixed.disk_is_last ops h f₀ none rfl (by simp [f₀])

example :
    let ops : List FixedOp := [.sessionId 5 true, .startNew 7 true, .sessionId 9 true]
    let f₀ : Fixed := ⟨none, none⟩
    lastId f₀ ops none = some 7 ∧
    ((f₀.run (ops ++ [.restart])).run [.sessionId 11 true, .startNew 12 true]).previous = some 7 := by decide

/-! ### The previous process with activity-based sessions -/

/-- `restart` does not occur and the stored value is not lost. -/
def ActOp.inProcess : ActOp → Bool
  | .restart => false
  | .lose => false
  | _ => true

theorem Act.previous_step (a : Act) (op : ActOp) (h : op.inProcess = true) :
    (a.step op).1.previous = a.previous := by
  obtain ⟨th, live, disk, uuid⟩ := a
  cases op with
  | sessionId now wok =>
    simp only [Act.step, Act.sessionId]
    have key : ∀ (b : Act) (l : Live), (b.touch l now wok).1.previous = l.prev := by
      intro b l
      unfold Act.touch
      simp only
      split
      · rfl
      · split
        · rfl
        · split <;> rfl
    rw [key]
    cases live with
    | some l => rfl
    | none => cases disk <;> rfl
  | startNew now wok => rfl
  | flush wok =>
    cases live with
    | none => rfl
    | some l => cases wok <;> rfl
  | previous => rfl
  | restart => simp [ActOp.inProcess] at h
  | lose => simp [ActOp.inProcess] at h

/-- C57: within a process the reported previous identifier never changes. -/
theorem C57_previous_constant (a : Act) (mid : List ActOp) (h : ∀ o ∈ mid, o.inProcess = true) :
    (a.run mid).previous = a.previous := by
  induction mid generalizing a with
  | nil => rfl
  | cons op mid ih =>
    have := ih (a.step op).1 (fun o ho => h o (by simp [ho]))
    exact this.trans (a.previous_step op (h op (by simp)))

/-- The identifier handed out by a call, if it hands one out; else the last one. -/
def handedOut (op : ActOp) (res acc : Option Nat) : Option Nat :=
  match op with
  | .sessionId _ _ => res
  | .startNew _ _ => res
  | _ => acc

/-- The last identifier handed out by `session_id` or `start_new_session` in a history, scanning the results
returned. -/
def lastAct (a : Act) : List ActOp → Option Nat → Option Nat
  | [], acc => acc
  | op :: ops, acc =>
    lastAct (a.step op).1 ops (handedOut op (a.step op).2 acc)

/-- The identifier on disk and the one in memory are `acc`; in memory a write time means it was stored. -/
structure Act.LastIs (a : Act) (acc : Option Nat) : Prop where
  disk : a.disk.map (·.id) = acc
  live : ∀ l, a.live = some l → some l.id = acc ∧ l.write.isSome = true

theorem Act.LastIs.step {a : Act} {acc : Option Nat} (h : a.LastIs acc) (op : ActOp) (hs : op.stored = true) :
    (a.step op).1.LastIs (handedOut op (a.step op).2 acc) := by
  obtain ⟨th, live, disk, uuid⟩ := a
  obtain ⟨hd, hl⟩ := h
  simp only at hd hl
  cases op with
  | sessionId now wok =>
    simp only [ActOp.stored] at hs
    subst hs
    simp only [Act.step, Act.sessionId, handedOut]
    have key : ∀ (b : Act) (l : Live), (l.write.isSome = true → b.disk.map (·.id) = some l.id) →
        (b.touch l now true).1.LastIs (some (b.touch l now true).2) := by
      intro b l hw
      unfold Act.touch
      simp only
      split
      · refine ⟨rfl, fun l' hl' => ?_⟩
        cases hl'; exact ⟨rfl, rfl⟩
      · cases hlw : l.write with
        | none =>
          refine ⟨rfl, fun l' hl' => ?_⟩
          cases hl'; exact ⟨rfl, rfl⟩
        | some w =>
          rw [hlw] at hw
          simp only
          split
          · refine ⟨rfl, fun l' hl' => ?_⟩
            cases hl'; exact ⟨rfl, rfl⟩
          · refine ⟨hw rfl, fun l' hl' => ?_⟩
            cases hl'; exact ⟨rfl, rfl⟩
    apply key
    cases live with
    | some l => intro _; exact hd.trans (hl l rfl).1.symm
    | none => cases disk <;> (intro hw; cases hw)
  | startNew now wok =>
    simp only [ActOp.stored] at hs
    subst hs
    refine ⟨rfl, fun l' hl' => ?_⟩
    cases hl'; exact ⟨rfl, rfl⟩
  | flush wok =>
    simp only [ActOp.stored] at hs
    subst hs
    cases live with
    | none => exact ⟨hd, hl⟩
    | some l =>
      refine ⟨(hl l rfl).1, fun l' hl' => ?_⟩
      cases hl'; exact hl l rfl
  | previous => exact ⟨hd, hl⟩
  | restart => exact ⟨hd, fun l hl' => by cases hl'⟩
  | lose => simp [ActOp.stored] at hs

theorem Act.LastIs.run (ops : List ActOp) : ∀ {a : Act} {acc : Option Nat}, a.LastIs acc →
    (∀ o ∈ ops, o.stored = true) → (a.run ops).LastIs (lastAct a ops acc) := by
  induction ops with
  | nil => intro a acc h _; exact h
  | cons op ops ih =>
    intro a acc h hs
    exact ih (h.step op (hs op (by simp))) (fun o ho => hs o (by simp [ho]))

/-- C57: after a restart the previous identifier reported – by the first query and every later one in that
process, also after the session expired or a new one was requested – is the last identifier handed out
before the restart (by the latest process that asked for one). -/
theorem C57_previous_is_last (threshold : Int) (ops mid : List ActOp) (h : ∀ o ∈ ops, o.stored = true)
    (hmid : ∀ o ∈ mid, o.inProcess = true) :
    let a₀ := Act.new threshold
    (((a₀.run (ops ++ [.restart])).run mid).step .previous).2 = lastAct a₀ ops none := by
  intro a₀
  simp only [Act.step]
  rw [C57_previous_constant _ mid hmid]
  have e : a₀.run (ops ++ [.restart]) = { (a₀.run ops) with live := none } := by
    have : ∀ (l : List ActOp) (a : Act), a.run (l ++ [.restart]) = { (a.run l) with live := none } := by
      intro l
      induction l with
      | nil => intro a; rfl
      | cons op l ih => intro a; exact ih _
    exact this ops a₀
  rw [e]
  have := Act.LastIs.run ops (a := a₀) (acc := none) ⟨rfl, fun l hl => by cases hl⟩ h
  exact this.disk

example :
    let ops : List ActOp := [.sessionId 0 true, .sessionId 100 true, .startNew 120 true, .sessionId 125 true]
    let mid : List ActOp := [.sessionId 500 true, .startNew 600 true]
    lastAct (Act.new 30) ops none = some 2 ∧
    (((Act.new 30).run (ops ++ [.restart])).run mid).previous = some 2 ∧
    ((((Act.new 30).run (ops ++ [.restart])).run mid).step (.sessionId 601 true)).2 = some 4 := by decide

/-- The last identifier that was written: a first call of a process writes its own, a new session does; `began`: the process has an
identifier; writes may fail, and the store may lose what it has. -/
def lastStored : List FixedOp → Bool → Option Nat → Option Nat
  | [], _, acc => acc
  | .sessionId g w :: ops, began, acc => lastStored ops true (if began = false ∧ w = true then some g else acc)
  | .startNew g w :: ops, _, acc => lastStored ops true (if w = true then some g else acc)
  | .restart :: ops, _, acc => lastStored ops false acc
  | .lose :: ops, began, _ => lastStored ops began none
  | .sessionIdInCallback _ :: ops, began, acc => lastStored ops began acc
  | .startNewInCallback :: ops, began, acc => lastStored ops began acc
  | .previous :: ops, began, acc => lastStored ops began acc

theorem Fixed.disk_is_stored (ops : List FixedOp) : ∀ f : Fixed, (f.run ops).disk = lastStored ops f.live.isSome f.disk := by
  induction ops with
  | nil => intro f; rfl
  | cons op ops ih =>
    intro f
    show ((f.step op).1.run ops).disk = _
    rw [ih]
    obtain ⟨live, disk⟩ := f
    cases op with
    | sessionId g w => cases live <;> cases w <;> rfl
    | startNew g w => cases live <;> cases w <;> rfl
    | _ => rfl

/-- C20 when writes fail: whatever fails and is lost, what a process reports as the previous identifier, at any point of its life, is
the last one that the processes before it managed to write. -/
theorem C20_previous_stored (ops mid : List FixedOp) (hmid : ∀ o ∈ mid, o.inProcess = true) :
    let f₀ : Fixed := ⟨none, none⟩
    ((f₀.run (ops ++ [.restart] ++ mid)).step .previous).2 = lastStored ops false none := by
  intro f₀
  rw [Fixed.run_append]
  simp only [Fixed.step]
  rw [C20_previous_constant _ mid hmid, Fixed.run_append]
  show Fixed.previous { (f₀.run ops) with live := none } = _
  simp only [Fixed.previous]
  exact Fixed.disk_is_stored ops f₀

/-- A history for `C20_previous_stored`: neither the new session nor the first one of the second process could be written. -/
example :
    let ops : List FixedOp := [.sessionId 5 true, .startNew 7 false, .restart, .sessionId 9 false]
    let f₀ : Fixed := ⟨none, none⟩
    lastStored ops false none = some 5 ∧ ((f₀.run (ops ++ [.restart] ++ [.sessionId 11 true])).step .previous).2 = some 5 := by decide

/-! ### The previous process, whatever fails -/

/-- The identifiers that the calls of a history hand out. -/
def Act.handed (a : Act) : List ActOp → List Nat
  | [] => []
  | op :: ops => (match op with
      | .sessionId _ _ | .startNew _ _ => (a.step op).2.toList
      | _ => []) ++ (a.step op).1.handed ops

/-- Every identifier the device knows is among those. -/
structure Act.Known (a : Act) (H : List Nat) : Prop where
  disk : ∀ s, a.disk = some s → s.id ∈ H
  live : ∀ l, a.live = some l → l.id ∈ H
  prev : ∀ l p, a.live = some l → l.prev = some p → p ∈ H

theorem Act.Known.mono {a : Act} {H K : List Nat} (h : a.Known H) (hs : ∀ x ∈ H, x ∈ K) : a.Known K :=
  ⟨fun s e => hs _ (h.disk s e), fun l e => hs _ (h.live l e), fun l p e f => hs _ (h.prev l p e f)⟩

theorem Act.Known.touch {a : Act} {H : List Nat} (l : Live) (now : Int) (wok : Bool)
    (hd : ∀ s, a.disk = some s → s.id ∈ H) (hp : ∀ p, l.prev = some p → p ∈ H) :
    (a.touch l now wok).1.Known (H ++ [(a.touch l now wok).2]) := by
  have key : ∀ (b : Act) (m : Live), (∀ s, b.disk = some s → s.id ∈ H ++ [m.id]) → m.prev = l.prev → b.live = some m → b.Known (H ++ [m.id]) := by
    intro b m h1 h2 h3
    refine ⟨h1, fun l' h => ?_, fun l' p h hq => ?_⟩
    · rw [h3] at h; cases h; exact List.mem_append_right _ (List.mem_singleton.2 rfl)
    · rw [h3] at h; cases h; rw [h2] at hq; exact List.mem_append_left _ (hp p hq)
  have hs : ∀ (b : Act) (m : Live), b.disk = a.disk → ∀ s, (b.store wok m).disk = some s → s.id ∈ H ++ [m.id] := by
    intro b m hb s h
    unfold Act.store at h
    split at h
    · cases h; exact List.mem_append_right _ (List.mem_singleton.2 rfl)
    · rw [hb] at h; exact List.mem_append_left _ (hd s h)
  unfold Act.touch
  dsimp only
  split
  · exact key _ { l with activity := now, id := a.uuid, write := some now } (hs { a with uuid := a.uuid + 1 } _ rfl) rfl rfl
  · split
    · exact key _ { l with activity := now, write := some now } (hs a _ rfl) rfl rfl
    · split
      · exact key _ { l with activity := now, write := some now } (hs a _ rfl) rfl rfl
      · exact key { a with live := some { l with activity := now } } { l with activity := now } (fun s h => List.mem_append_left _ (hd s h)) rfl rfl

theorem Act.Known.step {a : Act} {H : List Nat} (h : a.Known H) (op : ActOp) :
    (a.step op).1.Known (H ++ (match op with
      | .sessionId _ _ | .startNew _ _ => (a.step op).2.toList
      | _ => [])) := by
  cases op with
  | sessionId now wok =>
    refine Act.Known.touch (H := H) (a := (a.load now).1) (a.load now).2 now wok ?_ ?_
    · intro s hs
      have : (a.load now).1.disk = a.disk := by
        unfold Act.load; split
        · rfl
        · split <;> rfl
      rw [this] at hs
      exact h.disk s hs
    · intro p hp
      unfold Act.load at hp
      split at hp
      · rename_i l hl; exact h.prev l p hl hp
      · split at hp
        · rename_i s hs; cases hp; exact h.disk s hs
        · cases hp
  | startNew now wok =>
    have hprev : ∀ p, a.previous = some p → p ∈ H := by
      intro p hp
      unfold Act.previous at hp
      split at hp
      · cases hd : a.disk with
        | none => rw [hd] at hp; cases hp
        | some s => rw [hd] at hp; cases hp; exact h.disk s hd
      · rename_i l hl; exact h.prev l p hl hp
    refine ⟨fun s hs => ?_, fun l hl => ?_, fun l p hl hp => ?_⟩
    · change (({ a with uuid := a.uuid + 1 } : Act).store wok ⟨a.uuid, a.previous, now, some now⟩).disk = some s at hs
      unfold Act.store at hs
      split at hs
      · cases hs; exact List.mem_append_right _ (List.mem_singleton.2 rfl)
      · exact List.mem_append_left _ (h.disk s hs)
    · cases hl; exact List.mem_append_right _ (List.mem_singleton.2 rfl)
    · cases hl; exact List.mem_append_left _ (hprev p hp)
  | flush wok =>
    rw [List.append_nil]
    change (a.flush wok).Known H
    unfold Act.flush
    split
    · rename_i l hl
      unfold Act.store
      split
      · exact ⟨fun s hs => by cases hs; exact h.live l hl, h.live, h.prev⟩
      · exact h
    · exact h
  | previous => rw [List.append_nil]; exact h
  | restart => rw [List.append_nil]; exact ⟨h.disk, fun l hl => (nomatch hl), fun l p hl => (nomatch hl)⟩
  | lose => rw [List.append_nil]; exact ⟨fun s hs => (nomatch hs), h.live, h.prev⟩

/-- C57 whatever fails: with writes that fail, stores that lose what they have and processes that end at any point, an identifier
reported as the previous one was handed out before. -/
theorem C57_previous_handed_out (threshold : Int) (ops : List ActOp) (i : Nat)
    (h : (((Act.new threshold).run ops).step .previous).2 = some i) : i ∈ (Act.new threshold).handed ops := by
  have run : ∀ (ops : List ActOp) (a : Act) (H : List Nat), a.Known H → (a.run ops).Known (H ++ a.handed ops) := by
    intro ops
    induction ops with
    | nil => intro a H h; rw [show a.handed [] = [] from rfl, List.append_nil]; exact h
    | cons op ops ih =>
      intro a H h
      have := ih _ _ (h.step op)
      rw [List.append_assoc] at this
      exact this
  have k := run ops (Act.new threshold) [] ⟨fun s hs => (nomatch hs), fun l hl => (nomatch hl), fun l p hl => (nomatch hl)⟩
  rw [List.nil_append] at k
  change ((Act.new threshold).run ops).previous = some i at h
  unfold Act.previous at h
  split at h
  · cases hd : ((Act.new threshold).run ops).disk with
    | none => rw [hd] at h; cases h
    | some s => rw [hd] at h; cases h; exact k.disk s hd
  · rename_i l hl
    exact k.prev l i hl h

/-- A history for `C57_previous_handed_out`: the second session could not be written, so the process after it reports the first. -/
example :
    let ops : List ActOp := [.sessionId 0 true, .startNew 5 false, .restart, .sessionId 7 false]
    (((Act.new 100).run ops).step .previous).2 = some 0 ∧ (Act.new 100).handed ops = [0, 1, 0] := by decide

end Verif.Session
