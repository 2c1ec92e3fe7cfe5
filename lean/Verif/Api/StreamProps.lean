import Verif.Api.Stream

/-
C17: every acknowledgement goes to the request it answers.  C52: the life of a stream.
-/
namespace Verif.Api

/-- Requests with response channel `c` waiting for a response. -/
def Api.waitingOn (s : Api) (c : Nat) : Nat :=
  s.uploads.countP (fun x => x.2 == c) + s.intents.countP (fun x => x.2 == c)

/-- Messages (or the loss of the sender) seen on the response channel `c`. -/
def Api.answers (s : Api) (c : Nat) : Nat := s.outs.countP (fun o => o.chan == c)

/-- Requests tracked with response channel `c`. -/
def Api.requests (s : Api) (c : Nat) : Nat := s.tracked.countP (fun r => r.chan == c)

structure Api.Inv (s : Api) : Prop where
  keysU : (s.uploads.map (·.1)).Nodup
  keysI : (s.intents.map (·.1)).Nodup
  count : ∀ c, s.requests c = s.answers c + s.waitingOn c
  up : ∀ x ∈ s.uploads, (⟨.upload, x.1, x.2⟩ : Req) ∈ s.tracked
  int : ∀ x ∈ s.intents, (⟨.intent, x.1, x.2⟩ : Req) ∈ s.tracked
  outU : ∀ c u b, Out.upload c u b ∈ s.outs → (⟨.upload, u, c⟩ : Req) ∈ s.tracked
  outI : ∀ c u d, Out.intent c u d ∈ s.outs → (⟨.intent, u, c⟩ : Req) ∈ s.tracked
  gone : s.phase = .idle ∨ s.phase = .ended ∨ s.phase = .killed ∨ s.phase = .waiting → s.uploads = [] ∧ s.intents = []

theorem countP_dropped (l : List (Nat × Nat)) (c : Nat) :
    (l.map fun x => Out.dropped x.2).countP (fun o => o.chan == c) = l.countP (fun x => x.2 == c) := by
  rw [List.countP_map]; rfl

theorem countP_split (l : List (Nat × Nat)) (u c : Nat) :
    (l.filter (fun x => x.1 != u)).countP (fun x => x.2 == c) + (l.filter (fun x => x.1 == u)).countP (fun x => x.2 == c) =
      l.countP (fun x => x.2 == c) := by
  induction l with
  | nil => rfl
  | cons x l ih =>
    by_cases h : x.1 = u
    · rw [List.filter_cons_of_neg (by simp [h]), List.filter_cons_of_pos (by simp [h]), List.countP_cons, List.countP_cons]
      omega
    · rw [List.filter_cons_of_pos (by simp [h]), List.filter_cons_of_neg (by simp [h]), List.countP_cons, List.countP_cons]
      omega

theorem nodup_filter_keys {l : List (Nat × Nat)} (h : (l.map (·.1)).Nodup) (p : Nat × Nat → Bool) :
    ((l.filter p).map (·.1)).Nodup := by
  exact h.sublist (List.Sublist.map _ List.filter_sublist)

theorem nodup_insert {l : List (Nat × Nat)} (h : (l.map (·.1)).Nodup) (u c : Nat) :
    ((insertPending l u c).map (·.1)).Nodup := by
  unfold insertPending
  rw [List.map_append, List.nodup_append]
  refine ⟨nodup_filter_keys h _, by simp, ?_⟩
  intro x hx y hy
  simp only [List.map_cons, List.map_nil, List.mem_singleton] at hy
  obtain ⟨z, hz, rfl⟩ := List.mem_map.mp hx
  have := (List.mem_filter.mp hz).2
  rw [hy]
  simpa using this

/-- With distinct keys the entries with a key are the one found. -/
theorem filter_eq_find {l : List (Nat × Nat)} (h : (l.map (·.1)).Nodup) {u : Nat} {x : Nat × Nat}
    (hf : l.find? (fun y => y.1 == u) = some x) : l.filter (fun y => y.1 == u) = [x] := by
  induction l with
  | nil => simp at hf
  | cons y l ih =>
    rw [List.map_cons, List.nodup_cons] at h
    by_cases hy : y.1 = u
    · rw [List.find?_cons_of_pos (by simp [hy])] at hf
      cases hf
      rw [List.filter_cons_of_pos (by simp [hy])]
      congr 1
      rw [List.filter_eq_nil_iff]
      intro z hz hzu
      apply h.1
      rw [hy, ← (by simpa using hzu : z.1 = u)]
      exact List.mem_map_of_mem hz
    · rw [List.find?_cons_of_neg (by simp [hy])] at hf
      rw [List.filter_cons_of_neg (by simp [hy])]
      exact ih h.2 hf

theorem Api.Inv.dropped {s : Api} (h : s.Inv) (p : Phase) (k : Bool) : Api.Inv { s.dropPending with phase := p, killed := k } where
  keysU := by simp [Api.dropPending]
  keysI := by simp [Api.dropPending]
  count := fun c => by
    have := h.count c
    simp only [Api.requests, Api.answers, Api.waitingOn, Api.dropPending] at *
    rw [List.countP_append, countP_dropped, List.countP_append]
    simp only [List.countP_nil]
    omega
  up := by simp [Api.dropPending]
  int := by simp [Api.dropPending]
  outU := fun c u b hb => by
    simp only [Api.dropPending, List.mem_append, List.mem_map] at hb
    rcases hb with hb | ⟨x, _, hx⟩
    · exact h.outU c u b hb
    · cases hx
  outI := fun c u b hb => by
    simp only [Api.dropPending, List.mem_append, List.mem_map] at hb
    rcases hb with hb | ⟨x, _, hx⟩
    · exact h.outI c u b hb
    · cases hx
  gone := fun _ => by simp [Api.dropPending]

theorem Api.Inv.fail {s : Api} (h : s.Inv) : s.fail.Inv := h.dropped .ended s.killed

theorem Api.Inv.track {s : Api} (h : s.Inv) (ha : s.phase = .active) (r : Req) : (s.track r).Inv := by
  unfold Api.track
  cases hk : r.kind with
  | upload =>
    have hr : r = ⟨.upload, r.uuid, r.chan⟩ := by cases r; simp_all
    exact {
      keysU := nodup_insert h.keysU _ _
      keysI := h.keysI
      count := fun c => by
        have := h.count c
        have hs := countP_split s.uploads r.uuid c
        simp only [Api.requests, Api.answers, Api.waitingOn, insertPending, replaced, List.countP_append, countP_dropped,
          List.countP_singleton] at *
        omega
      up := fun x hx => by
        simp only [insertPending, List.mem_append, List.mem_filter, List.mem_singleton] at hx ⊢
        rcases hx with ⟨hx, _⟩ | rfl
        · exact Or.inl (h.up x hx)
        · exact Or.inr hr.symm
      int := fun x hx => List.mem_append_left _ (h.int x hx)
      outU := fun c u b hb => by
        simp only [List.mem_append, List.mem_map] at hb
        rcases hb with hb | ⟨x, _, hx⟩
        · exact List.mem_append_left _ (h.outU c u b hb)
        · cases hx
      outI := fun c u b hb => by
        simp only [List.mem_append, List.mem_map] at hb
        rcases hb with hb | ⟨x, _, hx⟩
        · exact List.mem_append_left _ (h.outI c u b hb)
        · cases hx
      gone := fun hh => by simp only [ha] at hh; simp at hh }
  | intent =>
    have hr : r = ⟨.intent, r.uuid, r.chan⟩ := by cases r; simp_all
    exact {
      keysU := h.keysU
      keysI := nodup_insert h.keysI _ _
      count := fun c => by
        have := h.count c
        have hs := countP_split s.intents r.uuid c
        simp only [Api.requests, Api.answers, Api.waitingOn, insertPending, replaced, List.countP_append, countP_dropped,
          List.countP_singleton] at *
        omega
      int := fun x hx => by
        simp only [insertPending, List.mem_append, List.mem_filter, List.mem_singleton] at hx ⊢
        rcases hx with ⟨hx, _⟩ | rfl
        · exact Or.inl (h.int x hx)
        · exact Or.inr hr.symm
      up := fun x hx => List.mem_append_left _ (h.up x hx)
      outU := fun c u b hb => by
        simp only [List.mem_append, List.mem_map] at hb
        rcases hb with hb | ⟨x, _, hx⟩
        · exact List.mem_append_left _ (h.outU c u b hb)
        · cases hx
      outI := fun c u b hb => by
        simp only [List.mem_append, List.mem_map] at hb
        rcases hb with hb | ⟨x, _, hx⟩
        · exact List.mem_append_left _ (h.outI c u b hb)
        · cases hx
      gone := fun hh => by simp only [ha] at hh; simp at hh }

/-- Changing only what the tracker does not use. -/
theorem Api.Inv.of_eq {s t : Api} (h : s.Inv) (h1 : t.uploads = s.uploads) (h2 : t.intents = s.intents) (h3 : t.outs = s.outs)
    (h4 : t.tracked = s.tracked) (h5 : t.phase = .idle ∨ t.phase = .ended ∨ t.phase = .killed ∨ t.phase = .waiting → t.uploads = [] ∧ t.intents = []) :
    t.Inv where
  keysU := by rw [h1]; exact h.keysU
  keysI := by rw [h2]; exact h.keysI
  count := fun c => by
    have := h.count c
    simp only [Api.requests, Api.answers, Api.waitingOn, h1, h2, h3, h4] at *
    exact this
  up := by rw [h1, h4]; exact h.up
  int := by rw [h2, h4]; exact h.int
  outU := by rw [h3, h4]; exact h.outU
  outI := by rw [h3, h4]; exact h.outI
  gone := h5

theorem Api.Inv.respond {s s' : Api} (h : s.Inv) (ha : s.phase = .active) {r : Resp} (hr : s.respond r = some s') :
    s'.Inv ∧ s'.phase = .active := by
  cases r with
  | handshake p => simp [Api.respond] at hr
  | pong =>
    simp only [Api.respond, Option.some.injEq] at hr
    subst hr
    exact ⟨h.of_eq rfl rfl rfl rfl (fun hh => by simp only [ha] at hh; simp at hh), ha⟩
  | errorShutdown b =>
    simp only [Api.respond, Option.some.injEq] at hr
    subst hr
    exact ⟨h, ha⟩
  | unhandled =>
    simp only [Api.respond, Option.some.injEq] at hr
    subst hr
    exact ⟨h, ha⟩
  | flushBuffers ok =>
    simp only [Api.respond] at hr
    split at hr
    · cases hr; exact ⟨h, ha⟩
    · cases hr
  | untyped acks =>
    simp only [Api.respond] at hr
    split at hr
    · cases hr
      exact ⟨h.of_eq rfl rfl rfl rfl (fun hh => by simp only [ha] at hh; simp at hh), ha⟩
    · cases hr
  | uploadAck u e =>
    cases hf : s.uploads.find? (fun x => x.1 == u) with
    | none => simp [Api.respond, hf] at hr
    | some x =>
      simp only [Api.respond, hf, Option.some.injEq] at hr
      subst hr
      have hx := List.mem_of_find?_eq_some hf
      have hxu : x.1 = u := by simpa using List.find?_some hf
      refine ⟨{
        keysU := nodup_filter_keys h.keysU _
        keysI := h.keysI
        count := fun c => ?_
        up := fun y hy => h.up y (List.mem_filter.mp hy).1
        int := h.int
        outU := fun c v b hb => ?_
        outI := fun c v b hb => ?_
        gone := fun hh => by simp only [ha] at hh; simp at hh }, ha⟩
      · have := h.count c
        have hs := countP_split s.uploads u c
        rw [filter_eq_find h.keysU hf] at hs
        simp only [Api.requests, Api.answers, Api.waitingOn, List.countP_append, List.countP_singleton, Out.chan] at *
        omega
      · simp only [List.mem_append, List.mem_singleton] at hb
        rcases hb with hb | hb
        · exact h.outU c v b hb
        · cases hb
          have := h.up x hx
          rwa [hxu] at this
      · simp only [List.mem_append, List.mem_singleton] at hb
        rcases hb with hb | hb
        · exact h.outI c v b hb
        · cases hb
  | intentAck u d =>
    cases hf : s.intents.find? (fun x => x.1 == u) with
    | none => simp [Api.respond, hf] at hr
    | some x =>
      simp only [Api.respond, hf, Option.some.injEq] at hr
      subst hr
      have hx := List.mem_of_find?_eq_some hf
      have hxu : x.1 = u := by simpa using List.find?_some hf
      refine ⟨{
        keysU := h.keysU
        keysI := nodup_filter_keys h.keysI _
        count := fun c => ?_
        up := h.up
        int := fun y hy => h.int y (List.mem_filter.mp hy).1
        outU := fun c v b hb => ?_
        outI := fun c v b hb => ?_
        gone := fun hh => by simp only [ha] at hh; simp at hh }, ha⟩
      · have := h.count c
        have hs := countP_split s.intents u c
        rw [filter_eq_find h.keysI hf] at hs
        simp only [Api.requests, Api.answers, Api.waitingOn, List.countP_append, List.countP_singleton, Out.chan] at *
        omega
      · simp only [List.mem_append, List.mem_singleton] at hb
        rcases hb with hb | hb
        · exact h.outU c v b hb
        · cases hb
      · simp only [List.mem_append, List.mem_singleton] at hb
        rcases hb with hb | hb
        · exact h.outI c v b hb
        · cases hb
          have := h.int x hx
          rwa [hxu] at this

theorem Api.Inv.respondAll (rs : List Resp) : ∀ {s : Api}, s.Inv → s.phase = .active → (s.respondAll rs).Inv := by
  induction rs with
  | nil => intro s h _; exact h
  | cons r rs ih =>
    intro s h ha
    simp only [Api.respondAll]
    cases hr : s.respond r with
    | none => exact h.fail
    | some s' =>
      obtain ⟨h1, h2⟩ := h.respond ha hr
      exact ih h1 h2

theorem Api.Inv.step {s : Api} (h : s.Inv) (e : Ev) : (s.step e).Inv := by
  cases e with
  | open_ a b =>
    cases hp : s.phase with
    | idle =>
      have hg := h.gone (Or.inl hp)
      simp only [Api.step, hp]
      split
      · exact h.of_eq rfl rfl rfl rfl fun _ => hg
      · split
        · split <;> exact h.of_eq rfl rfl rfl rfl fun _ => hg
        · exact h.of_eq rfl rfl rfl rfl fun _ => hg
    | _ => simp only [Api.step, hp]; exact h
  | data rs =>
    cases hp : s.phase with
    | waiting =>
      have hg := h.gone (by simp [hp])
      cases rs with
      | none => simp only [Api.step, hp]; exact h.fail
      | some l =>
        cases l with
        | nil => simp only [Api.step, hp]; exact h
        | cons r l =>
          cases r with
          | handshake p =>
            simp only [Api.step, hp]
            exact Api.Inv.respondAll l (h.of_eq rfl rfl rfl rfl fun _ => hg) rfl
          | errorShutdown b =>
            cases b with
            | true => simp only [Api.step, hp]; exact h.dropped _ _
            | false => simp only [Api.step, hp]; exact h.of_eq rfl rfl rfl rfl fun _ => hg
          | _ => simp only [Api.step, hp]; exact h.fail
    | active =>
      cases rs with
      | none => simp only [Api.step, hp]; exact h.fail
      | some l => simp only [Api.step, hp]; exact Api.Inv.respondAll l h hp
    | _ => simp only [Api.step, hp]; exact h
  | closed b =>
    cases hp : s.phase with
    | waiting => simp only [Api.step, hp]; exact h.of_eq rfl rfl rfl rfl fun _ => h.gone (by simp [hp])
    | active =>
      simp only [Api.step, hp]
      split
      · exact h.dropped _ s.killed
      · exact h.of_eq rfl rfl rfl rfl fun hh => by simp at hh
    | _ => simp only [Api.step, hp]; exact h
  | wake =>
    cases hp : s.phase with
    | backoff => simp only [Api.step, hp]; exact h.dropped _ s.killed
    | _ => simp only [Api.step, hp]; exact h
  | request r ok =>
    cases hp : s.phase with
    | active =>
      simp only [Api.step, hp]
      have ht := h.track hp r
      split
      · exact ht.of_eq rfl rfl rfl rfl fun hh => by
          have : (s.track r).phase = .active := by unfold Api.track; split <;> exact hp
          rw [this] at hh; simp at hh
      · exact ht.fail
    | _ => simp only [Api.step, hp]; exact h
  | pingTimer ok =>
    cases hp : s.phase with
    | active =>
      simp only [Api.step, hp]
      split
      · split
        · exact h.of_eq rfl rfl rfl rfl fun hh => by simp only [hp] at hh; simp at hh
        · exact Api.Inv.fail (h.of_eq rfl rfl rfl rfl fun hh => by simp only [hp] at hh; simp at hh)
      · exact h
    | _ => simp only [Api.step, hp]; exact h
  | shutdown =>
    cases hp : s.phase with
    | idle => simp only [Api.step, hp]; exact h
    | ended => simp only [Api.step, hp]; exact h
    | _ => simp only [Api.step, hp]; exact h.fail

theorem Api.inv_init (k : Bool) : (Api.init k).Inv := by
  constructor <;> simp [Api.init, Api.requests, Api.answers, Api.waitingOn]

theorem Api.inv_run (es : List Ev) : ∀ s : Api, s.Inv → (s.run es).Inv := by
  induction es with
  | nil => intro s h; exact h
  | cons e es ih => intro s h; exact ih _ (h.step e)

/-- C17: in every run, each request (each response channel is used by one request) has been answered exactly
once, or it is waiting and has not been answered. -/
theorem C17_once (k : Bool) (es : List Ev) (c : Nat) (h : ((Api.init k).run es).requests c = 1) :
    (((Api.init k).run es).answers c = 1 ∧ ((Api.init k).run es).waitingOn c = 0) ∨
    (((Api.init k).run es).answers c = 0 ∧ ((Api.init k).run es).waitingOn c = 1) := by
  have := (Api.inv_run es _ (Api.inv_init k)).count c
  omega

/-- C17: nothing is sent on a channel that belongs to no request, and a response on a channel carries the
identifier of the request and is of its kind. -/
theorem C17_answers (k : Bool) (es : List Ev) :
    (∀ c u b, Out.upload c u b ∈ ((Api.init k).run es).outs → (⟨.upload, u, c⟩ : Req) ∈ ((Api.init k).run es).tracked) ∧
    (∀ c u d, Out.intent c u d ∈ ((Api.init k).run es).outs → (⟨.intent, u, c⟩ : Req) ∈ ((Api.init k).run es).tracked) ∧
    (∀ c, ((Api.init k).run es).answers c ≤ ((Api.init k).run es).requests c) := by
  have h := Api.inv_run es _ (Api.inv_init k)
  exact ⟨h.outU, h.outI, fun c => by have := h.count c; omega⟩

/-- C17: the acknowledgement of a pending upload sends one response, to the request with that identifier, with
success exactly when there is no error; the other pending requests stay. -/
theorem C17_upload_ack (k : Bool) (es : List Ev) (u c : Nat) (err : Bool)
    (h : (u, c) ∈ ((Api.init k).run es).uploads) :
    let s := (Api.init k).run es
    s.respond (.uploadAck u err) = some { s with
      uploads := s.uploads.filter (fun y => y.1 != u), outs := s.outs ++ [.upload c u (!err)] } ∧
    ∀ y, y ∈ s.uploads.filter (fun y => y.1 != u) ↔ y ∈ s.uploads ∧ y ≠ (u, c) := by
  intro s
  have hi : s.Inv := Api.inv_run es _ (Api.inv_init k)
  have hsome : (s.uploads.find? (fun x => x.1 == u)).isSome := by
    rw [List.find?_isSome]; exact ⟨_, h, by simp⟩
  obtain ⟨x, hx⟩ := Option.isSome_iff_exists.mp hsome
  have hfilter := filter_eq_find hi.keysU hx
  have hc : (u, c) ∈ s.uploads.filter (fun y => y.1 == u) := List.mem_filter.mpr ⟨h, by simp⟩
  rw [hfilter, List.mem_singleton] at hc
  subst hc
  refine ⟨by simp only [Api.respond, hx], fun y => ?_⟩
  rw [List.mem_filter]
  constructor
  · rintro ⟨h1, h2⟩
    exact ⟨h1, fun hy => by rw [hy] at h2; simp at h2⟩
  · rintro ⟨h1, h2⟩
    refine ⟨h1, ?_⟩
    simp only [bne_iff_ne, ne_eq]
    intro hyu
    have : y ∈ s.uploads.filter (fun z => z.1 == u) := List.mem_filter.mpr ⟨h1, by simp [hyu]⟩
    rw [hfilter, List.mem_singleton] at this
    exact h2 this

/-- C17: the same for the response to an intent; without a decision it is a drop. -/
theorem C17_intent_ack (k : Bool) (es : List Ev) (u c : Nat) (d : Option Decision)
    (h : (u, c) ∈ ((Api.init k).run es).intents) :
    let s := (Api.init k).run es
    s.respond (.intentAck u d) = some { s with
      intents := s.intents.filter (fun y => y.1 != u), outs := s.outs ++ [.intent c u (d.getD .drop)] } := by
  intro s
  have hi : s.Inv := Api.inv_run es _ (Api.inv_init k)
  have hsome : (s.intents.find? (fun x => x.1 == u)).isSome := by
    rw [List.find?_isSome]; exact ⟨_, h, by simp⟩
  obtain ⟨x, hx⟩ := Option.isSome_iff_exists.mp hsome
  have hfilter := filter_eq_find hi.keysI hx
  have hc : (u, c) ∈ s.intents.filter (fun y => y.1 == u) := List.mem_filter.mpr ⟨h, by simp⟩
  rw [hfilter, List.mem_singleton] at hc
  subst hc
  simp only [Api.respond, hx]

/-- C17: a response with an unknown identifier ends the stream (and the whole task), and every pending request
is told. -/
theorem C17_unknown (s : Api) (hs : s.phase = .active) (u : Nat) (err : Bool) (rest : List Resp)
    (h : ∀ x ∈ s.uploads, x.1 ≠ u) :
    s.step (.data (some (.uploadAck u err :: rest))) = s.fail := by
  have : s.uploads.find? (fun x => x.1 == u) = none := by
    rw [List.find?_eq_none]
    intro x hx
    simpa using h x hx
  simp only [Api.step, hs, Api.respondAll, Api.respond, this]

/-- C17: once the stream is over (and the task is idle, killed or ended) nothing is pending: every request
ever tracked has been answered or told that its sender is gone. -/
theorem C17_stream_end (k : Bool) (es : List Ev)
    (h : ((Api.init k).run es).phase = .idle ∨ ((Api.init k).run es).phase = .ended ∨ ((Api.init k).run es).phase = .killed) (c : Nat) :
    ((Api.init k).run es).answers c = ((Api.init k).run es).requests c := by
  have hi := Api.inv_run es _ (Api.inv_init k)
  have hg := hi.gone (by rcases h with h | h | h <;> simp [h])
  have := hi.count c
  simp only [Api.waitingOn, hg.1, hg.2, List.countP_nil] at this
  omega

/-- C17: a failed task stays failed and its pending requests are dropped. -/
theorem C17_fail_drops (s : Api) : s.fail.phase = .ended ∧ s.fail.uploads = [] ∧ s.fail.intents = [] ∧
    ∀ x ∈ s.uploads ++ s.intents, Out.dropped x.2 ∈ s.fail.outs := by
  refine ⟨rfl, rfl, rfl, fun x hx => ?_⟩
  simp only [Api.fail, Api.dropPending]
  exact List.mem_append_right _ (List.mem_map_of_mem hx)

/-! ### C52: the life of a stream -/

structure Api.Life (s : Api) : Prop where
  waiting : s.phase = .waiting → s.sent = [.handshake] ∧ s.pingArmed = false ∧ s.pongs = 0 ∧ s.killed = false
  active : s.phase = .active → s.sent.head? = some .handshake ∧ s.sent.count .handshake = 1 ∧ s.killed = false ∧
    (s.sent.count .ping + (if s.pingArmed then 1 else 0) ≤ s.pongs + 1)
  killed : s.killed = true → s.phase = .idle ∨ s.phase = .killed ∨ s.phase = .ended
  killedPhase : s.phase = .killed → s.killed = true

theorem Api.Life.ended {s t : Api} (h : s.Life) (hp : t.phase = .ended) (hk : t.killed = s.killed) : t.Life :=
  ⟨fun h => (by rw [hp] at h; cases h), fun h => (by rw [hp] at h; cases h), fun _ => by simp [hp],
    fun h => (by rw [hp] at h; cases h)⟩

theorem Api.Life.respondAll (rs : List Resp) : ∀ {s : Api}, s.Life → s.phase = .active → (s.respondAll rs).Life := by
  induction rs with
  | nil => intro s h _; exact h
  | cons r rs ih =>
    intro s h ha
    simp only [Api.respondAll]
    have hact := h.active ha
    cases hr : s.respond r with
    | none => exact h.ended rfl rfl
    | some s' =>
      have key : s'.Life ∧ s'.phase = .active := by
        cases r with
        | handshake p => simp [Api.respond] at hr
        | pong =>
          simp only [Api.respond, Option.some.injEq] at hr
          subst hr
          refine ⟨⟨fun hh => by simp only [ha] at hh; simp at hh, fun _ => ⟨hact.1, hact.2.1, hact.2.2.1, ?_⟩, h.killed, h.killedPhase⟩, ha⟩
          have := hact.2.2.2
          simp only
          split <;> split at this <;> omega
        | errorShutdown b => simp only [Api.respond, Option.some.injEq] at hr; subst hr; exact ⟨h, ha⟩
        | unhandled => simp only [Api.respond, Option.some.injEq] at hr; subst hr; exact ⟨h, ha⟩
        | flushBuffers ok =>
          simp only [Api.respond] at hr
          split at hr
          · cases hr; exact ⟨h, ha⟩
          · cases hr
        | untyped acks =>
          simp only [Api.respond] at hr
          split at hr
          · cases hr
            refine ⟨⟨fun hh => by simp only [ha] at hh; simp at hh, fun _ => ⟨?_, ?_, hact.2.2.1, ?_⟩, h.killed, h.killedPhase⟩, ha⟩
            · have := hact.1
              simp [List.head?_append, this]
            · have := hact.2.1
              simp only [List.count_append, this]
              have : (List.map (fun _ => Msg.configAck) acks).count .handshake = 0 := by
                rw [List.count_eq_zero]; simp
              omega
            · have := hact.2.2.2
              simp only [List.count_append]
              have h0 : (List.map (fun _ => Msg.configAck) acks).count .ping = 0 := by
                rw [List.count_eq_zero]; simp
              omega
          · cases hr
        | uploadAck u e =>
          cases hf : s.uploads.find? (fun x => x.1 == u) with
          | none => simp [Api.respond, hf] at hr
          | some x =>
            simp only [Api.respond, hf, Option.some.injEq] at hr
            subst hr
            exact ⟨⟨fun hh => by simp only [ha] at hh; simp at hh, fun _ => hact, h.killed, h.killedPhase⟩, ha⟩
        | intentAck u e =>
          cases hf : s.intents.find? (fun x => x.1 == u) with
          | none => simp [Api.respond, hf] at hr
          | some x =>
            simp only [Api.respond, hf, Option.some.injEq] at hr
            subst hr
            exact ⟨⟨fun hh => by simp only [ha] at hh; simp at hh, fun _ => hact, h.killed, h.killedPhase⟩, ha⟩
      exact ih key.1 key.2

theorem Api.Life.to {s t : Api} (h : s.Life) (hp : t.phase = .idle ∨ t.phase = .backoff) (hk : t.killed = s.killed)
    (hs : s.phase = .waiting ∨ s.phase = .active ∨ s.phase = .backoff) : t.Life := by
  have hkf : s.killed = false := by
    cases hkk : s.killed with
    | false => rfl
    | true => rcases h.killed hkk with h1 | h1 | h1 <;> rw [h1] at hs <;> simp at hs
  refine ⟨fun hh => ?_, fun hh => ?_, fun hh => ?_, fun hh => ?_⟩
  · rcases hp with h1 | h1 <;> rw [h1] at hh <;> cases hh
  · rcases hp with h1 | h1 <;> rw [h1] at hh <;> cases hh
  · rw [hk, hkf] at hh; cases hh
  · rcases hp with h1 | h1 <;> rw [h1] at hh <;> cases hh

theorem Api.Life.step {s : Api} (h : s.Life) (e : Ev) : (s.step e).Life := by
  cases e with
  | open_ a b =>
    cases hp : s.phase with
    | idle =>
      simp only [Api.step, hp]
      split
      · rename_i hk
        exact ⟨fun hh => by simp at hh, fun hh => by simp at hh, fun _ => by simp, fun _ => hk⟩
      · rename_i hk
        have hkf : s.killed = false := by simpa using hk
        split
        · split
          · exact ⟨fun _ => ⟨rfl, rfl, rfl, hkf⟩, fun hh => by simp at hh, fun hh => absurd hh hk, fun hh => by simp at hh⟩
          · exact h.ended rfl rfl
        · exact h.ended rfl rfl
    | _ => simp only [Api.step, hp]; exact h
  | data rs =>
    cases hp : s.phase with
    | waiting =>
      have hw := h.waiting hp
      cases rs with
      | none => simp only [Api.step, hp]; exact h.ended rfl rfl
      | some l =>
        cases l with
        | nil => simp only [Api.step, hp]; exact h
        | cons r l =>
          cases r with
          | handshake p =>
            simp only [Api.step, hp]
            refine Api.Life.respondAll l ⟨fun hh => by simp at hh, fun _ => ⟨?_, ?_, hw.2.2.2, ?_⟩, fun hh => ?_, fun hh => by simp at hh⟩ rfl
            · simp [hw.1]
            · simp [hw.1]
            · simp only [hw.1]
              have : List.count Msg.ping [Msg.handshake] = 0 := by decide
              rw [this]
              split <;> omega
            · simp only [hw.2.2.2] at hh; cases hh
          | errorShutdown b =>
            cases b with
            | true =>
              simp only [Api.step, hp]
              exact ⟨fun hh => by simp at hh, fun hh => by simp at hh, fun _ => by simp, fun hh => by simp at hh⟩
            | false => simp only [Api.step, hp]; exact h.to (Or.inr rfl) rfl (Or.inl hp)
          | _ => simp only [Api.step, hp]; exact h.ended rfl rfl
    | active =>
      cases rs with
      | none => simp only [Api.step, hp]; exact h.ended rfl rfl
      | some l => simp only [Api.step, hp]; exact Api.Life.respondAll l h hp
    | _ => simp only [Api.step, hp]; exact h
  | closed b =>
    cases hp : s.phase with
    | waiting => simp only [Api.step, hp]; exact h.to (Or.inr rfl) rfl (Or.inl hp)
    | active =>
      simp only [Api.step, hp]
      split
      · exact h.to (Or.inl rfl) rfl (Or.inr (Or.inl hp))
      · exact h.to (Or.inr rfl) rfl (Or.inr (Or.inl hp))
    | _ => simp only [Api.step, hp]; exact h
  | wake =>
    cases hp : s.phase with
    | backoff => simp only [Api.step, hp]; exact h.to (Or.inl rfl) rfl (Or.inr (Or.inr hp))
    | _ => simp only [Api.step, hp]; exact h
  | request r ok =>
    cases hp : s.phase with
    | active =>
      have hact := h.active hp
      simp only [Api.step, hp]
      split
      · have e1 : (s.track r).phase = .active ∧ (s.track r).killed = s.killed ∧ (s.track r).pingArmed = s.pingArmed ∧
            (s.track r).pongs = s.pongs := by unfold Api.track; split <;> exact ⟨hp, rfl, rfl, rfl⟩
        refine ⟨(fun hh => by simp only [e1.1] at hh; cases hh), fun _ => ⟨?_, ?_, ?_, ?_⟩, fun hh => ?_, (fun hh => by simp only [e1.1] at hh; cases hh)⟩
        · simp [List.head?_append, hact.1]
        · simp only [List.count_append, hact.2.1]; simp
        · simp only [e1.2.1]; exact hact.2.2.1
        · simp only [List.count_append, e1.2.2.1, e1.2.2.2]
          have : List.count Msg.ping [Msg.data r] = 0 := by simp
          have := hact.2.2.2
          omega
        · simp only [e1.2.1, hact.2.2.1] at hh; cases hh
      · refine h.ended rfl ?_
        show (s.track r).killed = s.killed
        unfold Api.track; split <;> rfl
    | _ => simp only [Api.step, hp]; exact h
  | pingTimer ok =>
    cases hp : s.phase with
    | active =>
      have hact := h.active hp
      simp only [Api.step, hp]
      split
      · rename_i harm
        split
        · refine ⟨(fun hh => by simp only [hp] at hh; cases hh), fun _ => ⟨?_, ?_, hact.2.2.1, ?_⟩, fun hh => ?_, (fun hh => by simp only [hp] at hh; cases hh)⟩
          · simp [List.head?_append, hact.1]
          · simp only [List.count_append, hact.2.1]; simp
          · have := hact.2.2.2
            rw [if_pos harm] at this
            simp only [List.count_append]
            have : List.count Msg.ping [Msg.ping] = 1 := by decide
            simp only [Bool.false_eq_true, if_false]
            omega
          · simp only [hact.2.2.1] at hh; cases hh
        · exact h.ended rfl rfl
      · exact h
    | _ => simp only [Api.step, hp]; exact h
  | shutdown =>
    cases hp : s.phase with
    | idle => simp only [Api.step, hp]; exact h
    | ended => simp only [Api.step, hp]; exact h
    | _ => simp only [Api.step, hp]; exact h.ended rfl rfl

theorem Api.life_init (k : Bool) : (Api.init k).Life :=
  ⟨fun h => (by cases h), fun h => (by cases h), fun _ => Or.inl rfl, fun h => (by cases h)⟩

theorem Api.life_run (es : List Ev) : ∀ s : Api, s.Life → (s.run es).Life := by
  induction es with
  | nil => intro s h; exact h
  | cons e es ih => intro s h; exact ih _ (h.step e)

/-- C52: on every stream the handshake is the first thing sent and is sent once; until the server has answered
it nothing else is sent. -/
theorem C52_handshake_first (k : Bool) (es : List Ev) :
    (((Api.init k).run es).phase = .waiting → ((Api.init k).run es).sent = [.handshake]) ∧
    (((Api.init k).run es).phase = .active → ((Api.init k).run es).sent.head? = some .handshake ∧
      ((Api.init k).run es).sent.count .handshake = 1) := by
  have h := Api.life_run es _ (Api.life_init k)
  exact ⟨fun hp => (h.waiting hp).1, fun hp => ⟨(h.active hp).1, (h.active hp).2.1⟩⟩

/-- C52: a request is taken from the queue only on a stream whose handshake was answered. -/
theorem C52_requests_after_handshake (s : Api) (e : Ev) (h : (s.step e).tracked ≠ s.tracked) : s.phase = .active := by
  have hra : ∀ (rs : List Resp) (t : Api), (t.respondAll rs).tracked = t.tracked := by
    intro rs
    induction rs with
    | nil => intro t; rfl
    | cons r rs ih =>
      intro t
      simp only [Api.respondAll]
      cases hr : t.respond r with
      | none => rfl
      | some t' =>
        simp only
        rw [ih t']
        cases r <;> simp only [Api.respond] at hr
        · cases hr
        · cases hr; rfl
        · cases hr; rfl
        · split at hr
          · cases hr
          · cases hr; rfl
        · split at hr
          · cases hr
          · cases hr; rfl
        · split at hr
          · cases hr; rfl
          · cases hr
        · split at hr
          · cases hr; rfl
          · cases hr
        · cases hr; rfl
  cases hp : s.phase with
  | active => rfl
  | _ =>
    exfalso
    apply h
    cases e <;> simp only [Api.step, hp] <;> (repeat' split) <;> first | rfl | (rw [hra]) | trivial

/-- C52: at most one ping is outstanding: there is never more than one ping more than pongs. -/
theorem C52_pings (k : Bool) (es : List Ev) (h : ((Api.init k).run es).phase = .active) :
    ((Api.init k).run es).sent.count .ping ≤ ((Api.init k).run es).pongs + 1 := by
  have := ((Api.life_run es _ (Api.life_init k)).active h).2.2.2
  omega

theorem step_killed (s : Api) (hl : s.Life) (hk : s.killed = true) (e : Ev) :
    (s.step e).killed = true ∧ (s.step e).streams = s.streams := by
  rcases hl.killed hk with hp | hp | hp <;> cases e <;> simp only [Api.step, hp] <;>
    first | exact ⟨hk, rfl⟩ | exact ⟨hk, trivial⟩ | (rw [if_pos hk]; exact ⟨hk, rfl⟩)

/-- C52: a killed client opens no stream any more, whatever happens. -/
theorem C52_killed (k : Bool) (es es' : List Ev) (h : ((Api.init k).run es).killed = true) :
    ((Api.init k).run (es ++ es')).streams = ((Api.init k).run es).streams ∧
    ((Api.init k).run (es ++ es')).killed = true := by
  have key : ∀ es' (s : Api), s.Life → s.killed = true → (s.run es').streams = s.streams ∧ (s.run es').killed = true := by
    intro es'
    induction es' with
    | nil => intro s _ hk; exact ⟨rfl, hk⟩
    | cons e es' ih =>
      intro s hl hk
      obtain ⟨a, b⟩ := step_killed s hl hk e
      obtain ⟨c, d⟩ := ih (s.step e) (hl.step e) a
      exact ⟨c.trans b, d⟩
  have := key es' _ (Api.life_run es _ (Api.life_init k)) h
  simpa [Api.run, List.foldl_append] using this

/-- C52: the client kills itself exactly when the answer to the handshake is an authentication failure. -/
theorem C52_unauthenticated (s : Api) (hs : s.phase = .waiting) (rest : List Resp) :
    (s.step (.data (some (.errorShutdown true :: rest)))).killed = true ∧
    (s.step (.data (some (.errorShutdown true :: rest)))).phase = .idle := by
  simp only [Api.step, hs]
  exact ⟨trivial, trivial⟩

/-- C52: the task ends for good on any protocol error: a second handshake, a response before the handshake, an
unknown identifier, or data that cannot be decoded. -/
theorem C52_protocol_errors (s : Api) (rest : List Resp) :
    (s.phase = .active → ∀ p, (s.step (.data (some (.handshake p :: rest)))).phase = .ended) ∧
    (s.phase = .waiting → (s.step (.data (some (.pong :: rest)))).phase = .ended) ∧
    (s.phase = .active ∨ s.phase = .waiting → (s.step (.data none)).phase = .ended) := by
  refine ⟨fun h p => ?_, fun h => ?_, fun h => ?_⟩
  · simp only [Api.step, h, Api.respondAll, Api.respond]; rfl
  · simp only [Api.step, h]; rfl
  · rcases h with h | h <;> simp only [Api.step, h] <;> rfl

/-- A stream with two uploads and an intent, answered out of order, and a close. -/
example :
    let s := (Api.init false).run [.open_ true true, .data (some [.handshake true]), .request ⟨.upload, 10, 1⟩ true,
      .request ⟨.upload, 11, 2⟩ true, .request ⟨.intent, 10, 3⟩ true, .pingTimer true,
      .data (some [.uploadAck 11 true, .pong, .intentAck 10 none]), .closed false, .wake]
    s.outs = [.upload 2 11 false, .intent 3 10 .drop, .dropped 1] ∧ s.phase = .idle ∧ s.requests 1 = 1 := by decide

end Verif.Api
