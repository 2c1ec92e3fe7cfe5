import Verif.Net.Model

/-
C46: network usage per minute counts each byte once.
-/
namespace Verif.Net

theorem Traffic.add_assoc (a b c : Traffic) : (a.add b).add c = a.add (b.add c) := by
  simp only [Traffic.add, Nat.add_assoc]

theorem Traffic.zero_add (a : Traffic) : Traffic.zero.add a = a := by simp [Traffic.add, Traffic.zero]
theorem Traffic.add_zero (a : Traffic) : a.add Traffic.zero = a := by simp [Traffic.add, Traffic.zero]

/-- The traffic of the responses in a history. -/
def traffic : List Ev → Traffic
  | [] => .zero
  | .response v :: es => v.add (traffic es)
  | .report _ :: es => traffic es

/-- The part of a history from the first report not more than a minute before `now`. -/
def since (now : Nat) : List Ev → List Ev
  | [] => []
  | .response _ :: es => since now es
  | .report t :: es => if now - t ≤ minute then .report t :: es else since now es

/-- Times do not go backwards. -/
def Mono : Nat → List Ev → Prop
  | _, [] => True
  | t, .response _ :: es => Mono t es
  | t, .report now :: es => t ≤ now ∧ Mono now es

/-- The last report. -/
def lastTime : Nat → List Ev → Nat
  | t, [] => t
  | t, .response _ :: es => lastTime t es
  | _, .report now :: es => lastTime now es

/-- The history cut at the reports: the time of each report and the traffic until the next one. -/
def cut : Sample → List Ev → List Sample
  | s, [] => [s]
  | s, .response v :: es => cut { s with t := s.t.add v } es
  | s, .report now :: es => s :: cut ⟨now, .zero⟩ es

theorem addLast_append (v : Traffic) (l : List Sample) (s : Sample) :
    addLast v (l ++ [s]) = l ++ [{ s with t := s.t.add v }] := by
  induction l with
  | nil => rfl
  | cons x l ih =>
    cases l with
    | nil => rfl
    | cons y l => simp only [List.cons_append, addLast] at ih ⊢; rw [ih]

theorem lastTime_ge (es : List Ev) : ∀ t, Mono t es → t ≤ lastTime t es := by
  induction es with
  | nil => intro t _; exact Nat.le_refl t
  | cons e es ih =>
    intro t h
    cases e with
    | response v => exact ih t h
    | report now => exact Nat.le_trans h.1 (ih now h.2)

/-- The samples of the tracker: those of the complete cut history that were not more than a minute old at
the last report. -/
theorem samples_eq (es : List Ev) : ∀ (l : List Sample) (s : Sample) (rs : List (Option Traffic)),
    Mono s.start es → (∀ x ∈ l, s.start - x.start ≤ minute) →
    (Tracker.run ⟨l ++ [s], rs⟩ es).samples =
      (l ++ cut s es).filter (fun x => decide (lastTime s.start es - x.start ≤ minute)) := by
  induction es with
  | nil =>
    intro l s rs _ hl
    simp only [Tracker.run, List.foldl_nil, lastTime, cut]
    symm
    rw [List.filter_eq_self]
    intro x hx
    rw [List.mem_append, List.mem_singleton] at hx
    rcases hx with hx | rfl
    · simp [hl x hx]
    · simp
  | cons e es ih =>
    intro l s rs hm hl
    cases e with
    | response v =>
      have := ih l { s with t := s.t.add v } rs hm hl
      simp only [Tracker.run, List.foldl_cons, Tracker.step, addLast_append] at this ⊢
      exact this
    | report now =>
      have hs : ∀ x ∈ (l ++ [s]).filter (fun x => decide (now - x.start ≤ minute)), now - x.start ≤ minute := by
        intro x hx
        simpa using (List.mem_filter.mp hx).2
      have hstep : (Tracker.step ⟨l ++ [s], rs⟩ (.report now)).samples =
          (l ++ [s]).filter (fun x => decide (now - x.start ≤ minute)) ++ [⟨now, .zero⟩] := by
        simp only [Tracker.step, summary]
        split <;> rfl
      have h1 := ih ((l ++ [s]).filter (fun x => decide (now - x.start ≤ minute))) ⟨now, .zero⟩
        (Tracker.step ⟨l ++ [s], rs⟩ (.report now)).reports hm.2 hs
      have h2 : Tracker.run ⟨l ++ [s], rs⟩ (.report now :: es) = Tracker.run
          ⟨(l ++ [s]).filter (fun x => decide (now - x.start ≤ minute)) ++ [⟨now, .zero⟩],
            (Tracker.step ⟨l ++ [s], rs⟩ (.report now)).reports⟩ es := by
        rw [← hstep]; rfl
      rw [h2, h1]
      have hge := lastTime_ge es now hm.2
      simp only [lastTime, cut]
      have e3 : l ++ s :: cut ⟨now, .zero⟩ es = (l ++ [s]) ++ cut ⟨now, .zero⟩ es := by simp
      rw [e3, List.filter_append (l₁ := l ++ [s]), List.filter_append (l₁ := List.filter _ _), List.filter_filter]
      congr 1
      apply List.filter_congr
      intro x _
      have : (lastTime now es - x.start ≤ minute → now - x.start ≤ minute) := by omega
      by_cases h4 : lastTime now es - x.start ≤ minute <;> simp [h4, this]

theorem total_foldl (l : List Sample) (a : Traffic) : l.foldl (fun acc s => acc.add s.t) a = a.add (total l) := by
  unfold total
  induction l generalizing a with
  | nil => simp [Traffic.add_zero]
  | cons x l ih =>
    simp only [List.foldl_cons]
    rw [ih, ih (Traffic.zero.add x.t), Traffic.zero_add, Traffic.add_assoc]

theorem total_cons (x : Sample) (l : List Sample) : total (x :: l) = x.t.add (total l) := by
  simp only [total, List.foldl_cons]
  rw [total_foldl, Traffic.zero_add]; rfl

theorem total_cut (es : List Ev) : ∀ s, total (cut s es) = s.t.add (traffic es) := by
  induction es with
  | nil => intro s; simp [cut, traffic, total_cons]; simp [total, Traffic.add_zero]
  | cons e es ih =>
    intro s
    cases e with
    | response v => simp only [cut, traffic]; rw [ih, Traffic.add_assoc]
    | report now => simp only [cut, traffic]; rw [total_cons, ih, Traffic.zero_add]

/-- The recent samples of the cut history hold the traffic since the first recent report. -/
theorem total_recent (now : Nat) (es : List Ev) : ∀ s : Sample, Mono s.start es → lastTime s.start es ≤ now →
    total ((cut s es).filter fun x => decide (now - x.start ≤ minute)) =
      if now - s.start ≤ minute then s.t.add (traffic es) else traffic (since now es) := by
  induction es with
  | nil =>
    intro s _ _
    simp only [cut, since, traffic]
    by_cases h : now - s.start ≤ minute
    · rw [if_pos h, List.filter_cons_of_pos (by simp [h]), total_cons]; rfl
    · rw [if_neg h, List.filter_cons_of_neg (by simp [h])]; rfl
  | cons e es ih =>
    intro s hm hn
    cases e with
    | response v =>
      simp only [cut, since, traffic]
      rw [ih { s with t := s.t.add v } hm hn, Traffic.add_assoc]
    | report t =>
      simp only [cut, since, traffic, lastTime] at hn ⊢
      have hge := lastTime_ge es t hm.2
      have hts := hm.1
      have h2 := ih ⟨t, .zero⟩ hm.2 hn
      by_cases h : now - s.start ≤ minute
      · have ht : now - t ≤ minute := by omega
        rw [List.filter_cons_of_pos (by simp [h]), total_cons, h2, if_pos h]
        simp only [ht, if_true, Traffic.zero_add]
      · rw [List.filter_cons_of_neg (by simp [h]), h2, if_neg h]
        by_cases ht : now - t ≤ minute
        · simp only [ht, if_true, Traffic.zero_add, traffic]
        · simp only [ht, if_false]

/-- C46: the summary attached to a resource log, if any, is the traffic of the responses since the earliest
report (or the start of the tracker) in the last minute, each counted once. -/
theorem C46_summary (t0 : Nat) (es : List Ev) (now : Nat) (hm : Mono t0 (es ++ [.report now])) (t : Traffic)
    (h : (summary now ((Tracker.init t0).run es).samples).2 = some t) :
    t = traffic (since now (.report t0 :: es)) := by
  have hm1 : Mono t0 es ∧ lastTime t0 es ≤ now := by
    clear h
    induction es generalizing t0 with
    | nil => exact ⟨trivial, hm.1⟩
    | cons e es ih =>
      cases e with
      | response v => exact ih t0 hm
      | report x => exact ⟨⟨hm.1, (ih x hm.2).1⟩, (ih x hm.2).2⟩
  have hs := samples_eq es [] ⟨t0, .zero⟩ [] hm1.1 (by simp)
  have hs' : ((Tracker.init t0).run es).samples =
      (cut ⟨t0, .zero⟩ es).filter (fun x => decide (lastTime t0 es - x.start ≤ minute)) := hs
  unfold summary at h
  rw [hs'] at h
  simp only at h
  split at h
  · simp only [Option.some.injEq] at h
    rw [← h, List.filter_filter]
    have e1 : (cut ⟨t0, .zero⟩ es).filter (fun x => decide (now - x.start ≤ minute) && decide (lastTime t0 es - x.start ≤ minute)) =
        (cut ⟨t0, .zero⟩ es).filter (fun x => decide (now - x.start ≤ minute)) := by
      apply List.filter_congr
      intro x _
      have : now - x.start ≤ minute → lastTime t0 es - x.start ≤ minute := by omega
      by_cases h4 : now - x.start ≤ minute <;> simp [h4, this]
    rw [e1, total_recent now es ⟨t0, .zero⟩ hm1.1 hm1.2]
    simp only [since, Traffic.zero_add]
    split <;> simp [traffic]
  · cases h

/-- C46: a summary is attached exactly when some report (or the start) was within a minute of the previous
report and is now more than a minute old. -/
theorem C46_when (t0 : Nat) (es : List Ev) (now : Nat) (hm : Mono t0 es) :
    (summary now ((Tracker.init t0).run es).samples).2.isSome ↔
      ∃ x ∈ cut ⟨t0, .zero⟩ es, lastTime t0 es - x.start ≤ minute ∧ minute < now - x.start := by
  have hs' : ((Tracker.init t0).run es).samples =
      (cut ⟨t0, .zero⟩ es).filter (fun x => decide (lastTime t0 es - x.start ≤ minute)) :=
    samples_eq es [] ⟨t0, .zero⟩ [] hm (by simp)
  unfold summary
  rw [hs']
  simp only
  have key : ∀ l : List Sample, (l.filter fun x => decide (now - x.start ≤ minute)).length < l.length ↔
      ∃ x ∈ l, minute < now - x.start := by
    intro l
    rw [List.length_filter_lt_length_iff_exists]
    constructor
    · rintro ⟨x, h1, h2⟩; exact ⟨x, h1, Nat.lt_of_not_le (by simpa only [decide_eq_true_eq] using h2)⟩
    · rintro ⟨x, h1, h2⟩; exact ⟨x, h1, by simpa only [decide_eq_true_eq] using Nat.not_le_of_lt h2⟩
  have h2 := key ((cut ⟨t0, .zero⟩ es).filter (fun x => decide (lastTime t0 es - x.start ≤ minute)))
  split
  · rename_i hlt
    obtain ⟨x, hx, hx2⟩ := h2.mp hlt
    obtain ⟨h3, h4⟩ := List.mem_filter.mp hx
    exact ⟨fun _ => ⟨x, h3, by simpa using h4, hx2⟩, fun _ => rfl⟩
  · rename_i hlt
    refine ⟨fun h => by simp at h, ?_⟩
    rintro ⟨x, h3, h4, h5⟩
    exact absurd (h2.mpr ⟨x, List.mem_filter.mpr ⟨h3, by simpa using h4⟩, h5⟩) hlt

/-- C46: what is attached are the four counts of the summary and, for each direction, the sum of body and headers. -/
theorem C46_attached (t : Traffic) : (attach t).reqBody = t.reqBody ∧ (attach t).reqHeaders = t.reqHeaders ∧
    (attach t).respBody = t.respBody ∧ (attach t).respHeaders = t.respHeaders ∧
    (attach t).req = t.reqBody + t.reqHeaders ∧ (attach t).resp = t.respBody + t.respHeaders := ⟨rfl, rfl, rfl, rfl, rfl, rfl⟩

/-- C46: the count of a response field is the first value under its key that parses, unless a binary value under
the key comes first. -/
theorem C46_field (parse : List Char → Option Nat) (k : Key) (fs : List Field) (v : Nat) :
    getInt parse k fs = some v ↔ ∃ pre s post, fs = pre ++ ⟨k, .str s⟩ :: post ∧ parse s = some v ∧
      ∀ f ∈ pre, f.key = k → ∃ s', f.val = .str s' ∧ parse s' = none := by
  induction fs with
  | nil => simp [getInt]
  | cons f fs ih =>
    obtain ⟨key, val⟩ := f
    unfold getInt
    by_cases hk : key = k
    · subst hk
      rw [if_neg (by simp)]
      cases val with
      | bytes b =>
        simp only
        constructor
        · intro h; cases h
        · rintro ⟨pre, s, post, h1, _, h3⟩
          cases pre with
          | nil => simp at h1
          | cons x pre =>
            simp only [List.cons_append, List.cons.injEq] at h1
            obtain ⟨s', hs', _⟩ := h3 x List.mem_cons_self (by rw [← h1.1])
            rw [← h1.1] at hs'
            cases hs'
      | str s =>
        simp only
        cases hp : parse s with
        | some w =>
          simp only
          constructor
          · intro h
            cases h
            exact ⟨[], s, fs, rfl, hp, by simp⟩
          · rintro ⟨pre, s', post, h1, h2, h3⟩
            cases pre with
            | nil =>
              simp only [List.nil_append, List.cons.injEq, Field.mk.injEq, Val.str.injEq] at h1
              rw [h1.1.2] at hp
              rw [← hp, h2]
            | cons x pre =>
              simp only [List.cons_append, List.cons.injEq] at h1
              obtain ⟨s2, hs2, hp2⟩ := h3 x List.mem_cons_self (by rw [← h1.1])
              rw [← h1.1] at hs2
              cases hs2
              rw [hp] at hp2
              cases hp2
        | none =>
          simp only
          rw [ih]
          constructor
          · rintro ⟨pre, s', post, rfl, h2, h3⟩
            refine ⟨⟨key, .str s⟩ :: pre, s', post, rfl, h2, ?_⟩
            intro f hf hfk
            rcases List.mem_cons.mp hf with rfl | hf
            · exact ⟨s, rfl, hp⟩
            · exact h3 f hf hfk
          · rintro ⟨pre, s', post, h1, h2, h3⟩
            cases pre with
            | nil =>
              simp only [List.nil_append, List.cons.injEq, Field.mk.injEq, Val.str.injEq] at h1
              rw [h1.1.2, h2] at hp
              cases hp
            | cons x pre =>
              simp only [List.cons_append, List.cons.injEq] at h1
              exact ⟨pre, s', post, h1.2, h2, fun f hf => h3 f (List.mem_cons_of_mem _ hf)⟩
    · rw [if_pos hk, ih]
      constructor
      · rintro ⟨pre, s', post, rfl, h2, h3⟩
        refine ⟨⟨key, val⟩ :: pre, s', post, rfl, h2, ?_⟩
        intro f hf hfk
        rcases List.mem_cons.mp hf with rfl | hf
        · exact absurd hfk hk
        · exact h3 f hf hfk
      · rintro ⟨pre, s', post, h1, h2, h3⟩
        cases pre with
        | nil =>
          simp only [List.nil_append, List.cons.injEq, Field.mk.injEq] at h1
          exact absurd h1.1.1 hk
        | cons x pre =>
          simp only [List.cons_append, List.cons.injEq] at h1
          exact ⟨pre, s', post, h1.2, h2, fun f hf => h3 f (List.mem_cons_of_mem _ hf)⟩

/-- The fields say that the count under the key `k` is `v`: it is the first value under `k` that parses, and no binary value under `k` is
before it. -/
def Says (parse : List Char → Option Nat) (fs : List Field) (k : String) (v : Nat) : Prop :=
  ∃ pre s post, fs = pre ++ ⟨k.toList, .str s⟩ :: post ∧ parse s = some v ∧
    ∀ f ∈ pre, f.key = k.toList → ∃ s', f.val = .str s' ∧ parse s' = none

/-- C46: a response adds to each of the four counts what its fields say under the key of this count, and nothing if they say nothing. -/
theorem C46_response (parse : List Char → Option Nat) (fs : List Field) :
    let t := responseTraffic parse fs
    (∀ x ∈ [("_request_body_bytes_sent_count", t.reqBody), ("_request_headers_bytes_count", t.reqHeaders),
        ("_response_body_bytes_received_count", t.respBody), ("_response_headers_bytes_count", t.respHeaders)],
      (∀ v, Says parse fs x.1 v → x.2 = v) ∧ ((∀ v, ¬ Says parse fs x.1 v) → x.2 = 0)) := by
  have key : ∀ k : String, (∀ v, Says parse fs k v → (getInt parse k.toList fs).getD 0 = v) ∧
      ((∀ v, ¬ Says parse fs k v) → (getInt parse k.toList fs).getD 0 = 0) := by
    intro k
    constructor
    · intro v hv
      rw [(C46_field parse k.toList fs v).2 hv]; rfl
    · intro h
      cases hg : getInt parse k.toList fs with
      | none => rfl
      | some v => exact absurd ((C46_field parse k.toList fs v).1 hg) (h v)
  intro t x hx
  simp only [List.mem_cons, List.not_mem_nil, or_false] at hx
  rcases hx with rfl | rfl | rfl | rfl
  · exact key "_request_body_bytes_sent_count"
  · exact key "_request_headers_bytes_count"
  · exact key "_response_body_bytes_received_count"
  · exact key "_response_headers_bytes_count"

/-- Fields for `C46_response`: one count is there twice, the first time unreadable; one is not there. -/
example :
    let parse : List Char → Option Nat := fun s => if s = "7".toList then some 7 else if s = "5".toList then some 5 else none
    let fs : List Field := [⟨"_request_headers_bytes_count".toList, .str "x".toList⟩, ⟨"_response_headers_bytes_count".toList, .str "5".toList⟩,
      ⟨"_request_headers_bytes_count".toList, .str "7".toList⟩, ⟨"_response_body_bytes_received_count".toList, .bytes []⟩]
    responseTraffic parse fs = ⟨0, 7, 0, 5⟩ ∧ Says parse fs "_response_headers_bytes_count" 5 := by
  refine ⟨by decide +kernel, ⟨[⟨"_request_headers_bytes_count".toList, .str "x".toList⟩], "5".toList,
    [⟨"_request_headers_bytes_count".toList, .str "7".toList⟩, ⟨"_response_body_bytes_received_count".toList, .bytes []⟩],
    rfl, by decide +kernel, ?_⟩⟩
  intro f hf hk
  rw [List.mem_singleton.1 hf] at hk
  exact absurd hk (by decide +kernel)

/-- Bytes recorded while reports are more than a minute apart are in no summary. -/
theorem C46_gap :
    let v : Traffic := ⟨1, 2, 3, 4⟩
    ((Tracker.init 0).run [.response v, .report (minute + 1), .response v, .report (3 * minute)]).reports =
      [some .zero, some .zero] := by decide

example :
    let v : Traffic := ⟨1, 2, 3, 4⟩
    let s := minute / 60
    Mono 0 ([.response v, .report (30 * s), .response v, .report (50 * s), .response v] ++ [.report (61 * s)]) ∧
    ((Tracker.init 0).run [.response v, .report (30 * s), .response v, .report (50 * s), .response v, .report (61 * s),
      .response v, .report (62 * s)]).reports = [none, none, some ⟨2, 4, 6, 8⟩, none] := by
  refine ⟨?_, by decide⟩
  simp [Mono, minute]

end Verif.Net
