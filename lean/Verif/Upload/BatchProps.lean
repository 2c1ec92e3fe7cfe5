import Verif.Upload.Batch

/-
C12: batches of a triggered upload.
-/
namespace Verif.Upload

def bytesOf (l : List Entry) : Nat := (l.map fun e => e.data.length).sum

/-- A list of logs has reached the limits. -/
def Reached (l : Limits) (logs : List Entry) : Prop := l.bytes ≤ bytesOf logs ∨ l.logs ≤ logs.length

/-- No beginning of the batch, up to and including a log, reached the limits in force at that log. -/
def Below (batch : List Entry) : Prop :=
  ∀ pre e post, batch = pre ++ e :: post → ¬ Reached e.lim (pre ++ [e])

/-- A batch sent because of a limit: the last log made it reach the limits, no earlier one did. -/
def Full (batch : List Entry) : Prop := ∃ pre e, batch = pre ++ [e] ∧ Below pre ∧ Reached e.lim batch

def Builder.Ok (b : Builder) : Prop := b.totalBytes = bytesOf b.logs ∧ Below b.logs

theorem reached_add {b : Builder} (h : b.Ok) (e : Entry) :
    (b.add e).limitReached e.lim = true ↔ Reached e.lim (b.logs ++ [e]) := by
  have hb : (b.add e).totalBytes = bytesOf (b.logs ++ [e]) := by
    simp [Builder.add, h.1, bytesOf]
  have hne : (b.add e).logs.isEmpty = false := by simp [Builder.add]
  simp only [Builder.limitReached, hne, hb, Reached]
  simp [Builder.add]

theorem below_append {l : List Entry} {e : Entry} (h : Below l) (he : ¬ Reached e.lim (l ++ [e])) : Below (l ++ [e]) := by
  intro pre x post hx
  rcases List.eq_nil_or_concat post with rfl | ⟨post', y, rfl⟩
  · have := List.append_inj' hx rfl
    have hxe : e = x := by simpa using this.2
    rw [← this.1, ← hxe]; exact he
  · have hx' : l ++ [e] = (pre ++ x :: post') ++ [y] := by simpa using hx
    have := List.append_inj' hx' rfl
    exact h pre x post' this.1

theorem trig_inv (lookback : Option Int) (end_ : EndOf) (es : List Entry) :
    ∀ (b : Builder) (sent : List (List Entry)) (n : Nat), b.Ok →
      ∃ full last, trigLoop lookback end_ es b sent n =
          (sent ++ full ++ (if end_ = .unavailable ∧ last ≠ [] then [last] else []),
            n + (es.filter (·.old lookback)).length) ∧
        b.logs ++ es.filter (fun e => !e.old lookback) = full.flatten ++ last ∧
        (∀ x ∈ full, Full x) ∧ Below last := by
  induction es with
  | nil =>
    intro b sent n h
    refine ⟨[], b.logs, ?_, by simp, by simp, h.2⟩
    simp only [trigLoop, List.append_nil, List.filter_nil, List.length_nil, Nat.add_zero]
    cases end_ with
    | unavailable =>
      cases hb : b.logs with
      | nil => simp
      | cons x l => simp
    | error => simp
  | cons e es ih =>
    intro b sent n h
    simp only [trigLoop]
    by_cases ho : e.old lookback = true
    · rw [if_pos ho]
      obtain ⟨full, last, h1, h2, h3, h4⟩ := ih b sent (n + 1) h
      refine ⟨full, last, ?_, ?_, h3, h4⟩
      · rw [h1]
        congr 1
        have : (e :: es).filter (·.old lookback) = e :: es.filter (·.old lookback) :=
          List.filter_cons_of_pos ho
        rw [this, List.length_cons]; omega
      · rw [List.filter_cons_of_neg (by simp [ho])]; exact h2
    · rw [if_neg ho]
      have hf : (e :: es).filter (fun e => !e.old lookback) = e :: es.filter (fun e => !e.old lookback) := by
        rw [List.filter_cons_of_pos (by simp [ho])]
      have hg : (e :: es).filter (·.old lookback) = es.filter (·.old lookback) := by
        rw [List.filter_cons_of_neg ho]
      rw [hf, hg]
      by_cases hr : (b.add e).limitReached e.lim = true
      · rw [if_pos hr]
        have hempty : Builder.empty.Ok := ⟨rfl, by intro pre x post hx; simp [Builder.empty] at hx⟩
        obtain ⟨full, last, h1, h2, h3, h4⟩ := ih .empty (sent ++ [(b.add e).logs]) n hempty
        refine ⟨(b.add e).logs :: full, last, ?_, ?_, ?_, h4⟩
        · rw [h1]; simp
        · simp only [Builder.empty, List.nil_append] at h2
          rw [h2]; simp [Builder.add]
        · intro x hx
          cases hx with
          | head => exact ⟨b.logs, e, rfl, h.2, (reached_add h e).mp hr⟩
          | tail _ hx => exact h3 x hx
      · rw [if_neg hr]
        have hok : (b.add e).Ok :=
          ⟨by simp [Builder.add, h.1, bytesOf], below_append h.2 fun hh => hr ((reached_add h e).mpr hh)⟩
        obtain ⟨full, last, h1, h2, h3, h4⟩ := ih (b.add e) sent n hok
        refine ⟨full, last, h1, ?_, h3, h4⟩
        rw [← h2]; simp [Builder.add]

/-- C12: a triggered upload that reads the buffer to its end sends the logs it read, without those before
the look-back limit, in order, cut into batches: all but possibly the last one reached a limit with their
last log and not earlier; the last one is not empty and stayed below the limits.  The old logs are
counted. -/
theorem C12_batches (lookback : Option Int) (es : List Entry) :
    ∃ full last, (trigUpload lookback .unavailable es).1 = full ++ (if last ≠ [] then [last] else []) ∧
      full.flatten ++ last = es.filter (fun e => !e.old lookback) ∧
      (∀ x ∈ full, Full x) ∧ Below last ∧
      (trigUpload lookback .unavailable es).2 = (es.filter (·.old lookback)).length := by
  obtain ⟨full, last, h1, h2, h3, h4⟩ := trig_inv lookback .unavailable es .empty [] 0
    ⟨rfl, by intro pre x post hx; simp [Builder.empty] at hx⟩
  refine ⟨full, last, ?_, ?_, h3, h4, ?_⟩
  · unfold trigUpload; rw [h1]; simp
  · rw [← h2]; rfl
  · unfold trigUpload; rw [h1]; simp

/-- C12: the batches put together are the logs read, without the old ones; no batch is empty. -/
theorem C12_partition (lookback : Option Int) (es : List Entry) :
    (trigUpload lookback .unavailable es).1.flatten = es.filter (fun e => !e.old lookback) ∧
    ∀ b ∈ (trigUpload lookback .unavailable es).1, b ≠ [] := by
  obtain ⟨full, last, h1, h2, h3, h4, _⟩ := C12_batches lookback es
  rw [h1]
  constructor
  · rw [← h2]
    by_cases hl : last = [] <;> simp [hl]
  · intro b hb
    rw [List.mem_append] at hb
    rcases hb with hb | hb
    · obtain ⟨pre, e, rfl, _, _⟩ := h3 b hb; simp
    · split at hb
      · rename_i hl; simp only [List.mem_singleton] at hb; rw [hb]; exact hl
      · simp at hb

/-- C12: with limits that do not change, every batch without its last log is below both limits (so a batch
exceeds the byte limit by at most its last log), no batch has more than the maximum number of logs, and
every batch but the last reached a limit. -/
theorem C12_limits (lookback : Option Int) (es : List Entry) (l : Limits) (hl : ∀ e ∈ es, e.lim = l) :
    (∀ b ∈ (trigUpload lookback .unavailable es).1,
      (2 ≤ b.length → bytesOf b.dropLast < l.bytes ∧ b.length ≤ l.logs)) ∧
    ∀ b ∈ (trigUpload lookback .unavailable es).1.dropLast, Reached l b := by
  obtain ⟨full, last, h1, h2, h3, h4, _⟩ := C12_batches lookback es
  have hmem : ∀ b ∈ (trigUpload lookback .unavailable es).1, ∀ e ∈ b, e.lim = l := by
    intro b hb e he
    apply hl
    have := (C12_partition lookback es).1
    have h5 : e ∈ (trigUpload lookback .unavailable es).1.flatten := List.mem_flatten.mpr ⟨b, hb, he⟩
    rw [this] at h5
    exact (List.mem_filter.mp h5).1
  have hpre : ∀ p : List Entry, Below p → (∀ e ∈ p, e.lim = l) → p ≠ [] → ¬ Reached l p := by
    intro p hp hpl hne
    obtain ⟨q, x, rfl⟩ := List.eq_nil_or_concat p |>.resolve_left hne
    have := hp q x [] (by simp)
    rw [hpl x (by simp)] at this
    simpa using this
  constructor
  · intro b hb h2len
    have hbl := hmem b hb
    have key : ∃ p x, b = p ++ [x] ∧ Below p := by
      rw [h1, List.mem_append] at hb
      rcases hb with hb | hb
      · obtain ⟨p, x, e, hp, _⟩ := h3 b hb; exact ⟨p, x, e, hp⟩
      · split at hb
        · rename_i hne
          simp only [List.mem_singleton] at hb
          subst hb
          obtain ⟨q, x, rfl⟩ := List.eq_nil_or_concat b |>.resolve_left hne
          refine ⟨q, x, by simp, ?_⟩
          intro pre e post he
          exact h4 pre e (post ++ [x]) (by simp [he])
        · simp at hb
    obtain ⟨p, x, rfl, hp⟩ := key
    have hpne : p ≠ [] := by
      intro h; subst h; simp at h2len
    have := hpre p hp (fun e he => hbl e (by simp [he])) hpne
    unfold Reached at this
    rw [List.dropLast_concat]
    simp only [List.length_append, List.length_cons, List.length_nil]
    omega
  · intro b hb
    rw [h1] at hb
    have hbf : b ∈ full := by
      by_cases hn : last = []
      · simp only [hn, ne_eq, not_true_eq_false, if_false, List.append_nil] at hb
        exact List.dropLast_subset _ hb
      · simp only [ne_eq, hn, not_false_eq_true, if_true, List.dropLast_concat] at hb
        exact hb
    obtain ⟨p, x, e, _, hr⟩ := h3 b hbf
    have : x.lim = l := hmem b (by rw [h1]; simp [hbf]) x (by rw [e]; simp)
    rw [this] at hr
    exact hr

/-- C12: only logs with a time before the look-back limit are left out. -/
theorem C12_lookback (lookback : Option Int) (es : List Entry) :
    (trigUpload lookback .unavailable es).1.flatten = es.filter fun e =>
      match lookback, e.ts with
      | some w, some t => decide (w ≤ t)
      | _, _ => true := by
  rw [(C12_partition lookback es).1]
  refine List.filter_congr fun e _ => ?_
  unfold Entry.old
  cases lookback with
  | none => rfl
  | some w =>
    cases e.ts with
    | none => rfl
    | some t =>
      by_cases h : t < w
      · simp [h, Int.not_le.2 h]
      · simp [h, Int.not_lt.1 h]

/-- C12: an upload whose reading fails sends full batches only; what was sent is a beginning of the logs
read. -/
theorem C12_error (lookback : Option Int) (es : List Entry) :
    ∃ rest, (trigUpload lookback .error es).1.flatten ++ rest = es.filter (fun e => !e.old lookback) ∧
      ∀ b ∈ (trigUpload lookback .error es).1, Full b := by
  obtain ⟨full, last, h1, h2, h3, h4⟩ := trig_inv lookback .error es .empty [] 0
    ⟨rfl, by intro pre x post hx; simp [Builder.empty] at hx⟩
  refine ⟨last, ?_, ?_⟩
  · unfold trigUpload; rw [h1]; simp only [Builder.empty, List.nil_append] at h2; simp [h2]
  · unfold trigUpload; rw [h1]; simpa using h3

example :
    let l : Limits := ⟨3, 10⟩
    let e (n : Nat) (ts : Int) : Entry := ⟨List.replicate n 0, some ts, l⟩
    ((trigUpload (some 100) .unavailable [e 4 200, e 4 50, e 4 200, e 4 200, e 1 200, e 1 300, e 1 100, e 2 200]).1.map
      fun b => b.map fun x => x.data.length) = [[4, 4, 4], [1, 1, 1], [2]] := by decide

end Verif.Upload
