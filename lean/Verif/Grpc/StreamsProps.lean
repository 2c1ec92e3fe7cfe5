import Verif.Grpc.Streams

/-
C123: every server stream is counted once when it begins and once when it ends.
-/
namespace Verif.Grpc.Streams

def count (p : Phase) (l : List Call) : Nat := l.countP fun c => decide (c.phase = p)

def total (f : Call → Nat) (l : List Call) : Nat := (l.map f).sum

theorem total_set (f : Call → Nat) : ∀ (l : List Call) (i : Nat) (c c' : Call), l[i]? = some c → total f (l.set i c') + f c = total f l + f c'
  | [], i, c, c', h => by simp at h
  | x :: l, 0, c, c', h => by
    simp only [List.getElem?_cons_zero, Option.some.injEq] at h
    subst h
    simp only [total, List.set_cons_zero, List.map_cons, List.sum_cons]; omega
  | x :: l, i + 1, c, c', h => by
    simp only [List.getElem?_cons_succ] at h
    have := total_set f l i c c' h
    simp only [total, List.set_cons_succ, List.map_cons, List.sum_cons] at this ⊢; omega

theorem count_total (p : Phase) (l : List Call) : count p l = total (fun c => if c.phase = p then 1 else 0) l := by
  induction l with
  | nil => rfl
  | cons x l ih =>
    unfold count at ih ⊢
    rw [List.countP_cons, ih]
    simp only [total, List.map_cons, List.sum_cons, decide_eq_true_eq]
    omega

/-- What the counters are said to be. -/
structure Ok (s : Srv) : Prop where
  initiations : s.initiations = s.calls.length
  successes : s.successes = count .ok s.calls
  failures : s.failures = count .invalid s.calls + count .error s.calls
  reported : s.reported = count .error s.calls
  messages : s.messages = total (fun c => c.frames + c.refused + c.pending.toNat) s.calls

theorem Ok.set {s : Srv} (h : Ok s) {i : Nat} {c : Call} (hc : s.calls[i]? = some c) (c' : Call) (a b d e : Nat)
    (h1 : a + (if c.phase = .ok then 1 else 0) = s.successes + (if c'.phase = .ok then 1 else 0))
    (h2 : b + (if c.phase = .invalid then 1 else 0) + (if c.phase = .error then 1 else 0) =
      s.failures + (if c'.phase = .invalid then 1 else 0) + (if c'.phase = .error then 1 else 0))
    (h3 : d + (if c.phase = .error then 1 else 0) = s.reported + (if c'.phase = .error then 1 else 0))
    (h4 : e + (c.frames + c.refused + c.pending.toNat) = s.messages + (c'.frames + c'.refused + c'.pending.toNat)) :
    Ok { s with calls := s.calls.set i c', successes := a, failures := b, reported := d, messages := e } := by
  have t1 := total_set (fun c => if c.phase = .ok then 1 else 0) s.calls i c c' hc
  have t2 := total_set (fun c => if c.phase = .invalid then 1 else 0) s.calls i c c' hc
  have t3 := total_set (fun c => if c.phase = .error then 1 else 0) s.calls i c c' hc
  have t4 := total_set (fun c => c.frames + c.refused + c.pending.toNat) s.calls i c c' hc
  have g1 := h.successes; have g2 := h.failures; have g3 := h.reported; have g4 := h.messages
  rw [count_total] at g1 g3
  rw [count_total, count_total] at g2
  refine ⟨by simpa using h.initiations, ?_, ?_, ?_, ?_⟩
  · show a = count .ok _
    rw [count_total]; dsimp only; omega
  · show b = count .invalid _ + count .error _
    rw [count_total, count_total]; dsimp only; omega
  · show d = count .error _
    rw [count_total]; dsimp only; omega
  · show e = total _ _
    dsimp only; omega

theorem Ok.step {s : Srv} (h : Ok s) (e : Ev) : Ok (s.step e) := by
  cases e with
  | arrive =>
    refine ⟨?_, ?_, ?_, ?_, ?_⟩
    · simp [Srv.step, h.initiations]
    · simp [Srv.step, h.successes, count]
    · simp [Srv.step, h.failures, count]
    · simp [Srv.step, h.reported, count]
    · simp [Srv.step, h.messages, total]
  | decoded i ok =>
    unfold Srv.step
    dsimp only
    split
    · rename_i c hc
      split
      · rename_i hp
        split
        · exact h.set hc _ _ _ _ _ (by simp [hp]) (by simp [hp]) (by simp [hp]) rfl
        · exact h.set hc _ _ _ _ _ (by simp [hp]) (by simp [hp]) (by simp [hp]) rfl
      · exact h
    · exact h
  | leave i =>
    unfold Srv.step
    dsimp only
    split
    · rename_i c hc
      refine h.set hc c.leave _ _ _ _ ?_ ?_ ?_ rfl <;> (unfold Call.leave; cases hp : c.phase <;> simp)
    · exact h
  | send i =>
    unfold Srv.step
    dsimp only
    split
    · rename_i c hc
      split
      · rename_i hp
        exact h.set hc { c with pending := true } _ _ _ _ rfl rfl rfl (by simp only [hp.2, Bool.toNat_true, Bool.toNat_false]; omega)
      · exact h
    · exact h
  | sent i =>
    unfold Srv.step
    dsimp only
    split
    · rename_i c hc
      split
      · rename_i hp
        have hph : c.sent.phase = c.phase := by unfold Call.sent; split <;> rfl
        have hs : c.sent.frames + c.sent.refused + c.sent.pending.toNat = c.frames + c.refused + c.pending.toNat := by
          unfold Call.sent; split <;> (simp only [hp.2, Bool.toNat_true, Bool.toNat_false]; omega)
        exact h.set hc c.sent _ _ _ _ (by rw [hph]) (by rw [hph]) (by rw [hph]) (by omega)
      · exact h
    · exact h
  | finish i r reporter =>
    unfold Srv.step
    dsimp only
    split
    · rename_i c hc
      split
      · rename_i hp
        have hp := hp.1
        cases r with
        | ok => exact h.set hc (c.finish .ok true) _ _ _ _ (by simp [hp, Call.finish]) (by simp [hp, Call.finish]) (by simp [hp, Call.finish]) rfl
        | error =>
          cases reporter with
          | true => exact h.set hc (c.finish .error false) _ _ _ _ (by simp [hp, Call.finish]) (by simp [hp, Call.finish]) (by simp [hp, Call.finish]) rfl
          | false => exact h.set hc { c with phase := .error } _ _ _ _ (by simp [hp]) (by simp [hp]) (by simp [hp]) rfl
        | panic => exact h.set hc { c with phase := .panicked } _ _ _ _ (by simp [hp]) (by simp [hp]) (by simp [hp]) rfl
      · exact h
    · exact h
  | shutdown =>
    have hc : ∀ p, p = .ok ∨ p = .error ∨ p = .invalid → count p (s.calls.map fun c => if c.active then { c with phase := .dropped } else c) = count p s.calls := by
      intro p hp
      unfold count
      rw [List.countP_map]
      congr 1
      funext c
      simp only [Function.comp_apply, Call.active]
      obtain ⟨ph, _, _, _, _⟩ := c
      rcases hp with rfl | rfl | rfl <;> cases ph <;> simp
    refine ⟨?_, ?_, ?_, ?_, ?_⟩
    · simp [Srv.step, h.initiations]
    · show s.successes = _; rw [h.successes]; exact (hc _ (.inl rfl)).symm
    · show s.failures = _; rw [h.failures]; exact congr (congrArg _ (hc _ (.inr (.inr rfl))).symm) (hc _ (.inr (.inl rfl))).symm
    · show s.reported = _; rw [h.reported]; exact (hc _ (.inr (.inl rfl))).symm
    · show s.messages = total _ (s.calls.map _)
      rw [h.messages]
      unfold total
      rw [List.map_map]
      congr 2
      funext c
      simp only [Function.comp_apply]
      split <;> rfl

theorem ok_run : ∀ (es : List Ev) {s : Srv}, Ok s → Ok (s.run es)
  | [], _, h => h
  | e :: es, _, h => ok_run es (h.step e)

theorem phases (l : List Call) : l.length = count .decoding l + count .running l + count .invalid l + count .ok l + count .error l +
    count .panicked l + count .dropped l := by
  induction l with
  | nil => rfl
  | cons c l ih =>
    unfold count at ih ⊢
    simp only [List.countP_cons, List.length_cons]
    cases hc : c.phase <;> simp <;> omega

/-- **C123 (partial).** The streams begun are those counted as successes (the handler returned `Ok`), those counted as failures (the request was not
valid, or the handler returned an error), those in progress, and those that panicked or were dropped.  Missing: the last ones are never counted
(`C123_panic_violated`, `C123_dropped_violated`). -/
theorem C123_sum_partial (es : List Ev) :
    let s := ({} : Srv).run es
    s.initiations = s.calls.length ∧
    s.successes = count .ok s.calls ∧ s.failures = count .invalid s.calls + count .error s.calls ∧
    s.initiations = s.successes + s.failures + (count .decoding s.calls + count .running s.calls) + (count .panicked s.calls + count .dropped s.calls) := by
  intro s
  have h : Ok s := ok_run es ⟨rfl, rfl, rfl, rfl, rfl⟩
  refine ⟨h.initiations, h.successes, h.failures, ?_⟩
  have := phases s.calls
  rw [h.initiations, h.successes, h.failures]
  omega

/-- A stream that has ended stays as it ended, and is not counted again. -/
theorem C123_once (s : Srv) (e : Ev) (i : Nat) (c : Call) (hc : s.calls[i]? = some c) (hp : c.phase ≠ .decoding ∧ c.phase ≠ .running) :
    ∃ c', (s.step e).calls[i]? = some c' ∧ c'.phase = c.phase ∧ c'.frames = c.frames ∧ c'.refused = c.refused ∧ c'.trailers = c.trailers := by
  have hlt : i < s.calls.length := (List.getElem?_eq_some_iff.1 hc).1
  have hset : ∀ (j : Nat) (d d' : Call), s.calls[j]? = some d → (j = i → d'.phase = d.phase ∧ d'.frames = d.frames ∧ d'.refused = d.refused ∧ d'.trailers = d.trailers) →
      ∃ c', (s.calls.set j d')[i]? = some c' ∧ c'.phase = c.phase ∧ c'.frames = c.frames ∧ c'.refused = c.refused ∧ c'.trailers = c.trailers := by
    intro j d d' hd h
    by_cases hj : j = i
    · subst hj
      rw [hc] at hd; cases hd
      exact ⟨d', by rw [List.getElem?_set_self hlt], h rfl⟩
    · exact ⟨c, by rw [List.getElem?_set_ne hj]; exact hc, rfl, rfl, rfl, rfl⟩
  have same : ∃ c', s.calls[i]? = some c' ∧ c'.phase = c.phase ∧ c'.frames = c.frames ∧ c'.refused = c.refused ∧ c'.trailers = c.trailers :=
    ⟨c, hc, rfl, rfl, rfl, rfl⟩
  cases e with
  | arrive => exact ⟨c, by show (s.calls ++ _)[i]? = _; rw [List.getElem?_append_left hlt]; exact hc, rfl, rfl, rfl, rfl⟩
  | decoded j ok =>
    unfold Srv.step
    dsimp only
    split
    · rename_i d hd
      split
      · rename_i hph
        have hne : j ≠ i := fun e => by subst e; rw [hc] at hd; cases hd; exact hp.1 hph
        split <;> exact hset j d _ hd fun e => absurd e hne
      · exact same
    · exact same
  | leave j =>
    unfold Srv.step
    dsimp only
    split
    · rename_i d hd
      refine hset j d _ hd fun e => ?_
      subst e
      rw [hc] at hd; cases hd
      exact ⟨by simp [Call.leave, hp.1], rfl, rfl, rfl⟩
    · exact same
  | send j =>
    unfold Srv.step
    dsimp only
    split
    · rename_i d hd
      split
      · rename_i hph
        have hne : j ≠ i := fun e => by subst e; rw [hc] at hd; cases hd; exact hp.2 hph.1
        exact hset j d _ hd fun e => absurd e hne
      · exact same
    · exact same
  | sent j =>
    unfold Srv.step
    dsimp only
    split
    · rename_i d hd
      split
      · rename_i hph
        have hne : j ≠ i := fun e => by subst e; rw [hc] at hd; cases hd; exact hp.2 hph.1
        exact hset j d _ hd fun e => absurd e hne
      · exact same
    · exact same
  | finish j r reporter =>
    unfold Srv.step
    dsimp only
    split
    · rename_i d hd
      split
      · rename_i hph
        have hne : j ≠ i := fun e => by subst e; rw [hc] at hd; cases hd; exact hp.2 hph.1
        cases r <;> exact hset j d _ hd fun e => absurd e hne
      · exact same
    · exact same
  | shutdown =>
    refine ⟨c, ?_, rfl, rfl, rfl, rfl⟩
    show (s.calls.map _)[i]? = _
    rw [List.getElem?_map, hc]
    simp [Call.active, hp.1, hp.2]

/-- **C123.** Every message given to a stream is counted, also one that the client does not get any more and one that still waits; the error handler is called for exactly the
streams whose handler failed, not for requests that are not valid. -/
theorem C123_messages (es : List Ev) :
    let s := ({} : Srv).run es
    s.messages = total (fun c => c.frames) s.calls + total (fun c => c.refused) s.calls + s.calls.countP (fun c => c.pending) ∧ s.reported = count .error s.calls := by
  intro s
  have h : Ok s := ok_run es ⟨rfl, rfl, rfl, rfl, rfl⟩
  refine ⟨?_, h.reported⟩
  rw [h.messages]
  generalize s.calls = l
  induction l with
  | nil => rfl
  | cons c l ih =>
    simp only [total, List.map_cons, List.sum_cons, List.countP_cons] at ih ⊢
    cases c.pending <;> simp only [Bool.toNat_true, Bool.toNat_false, if_true, Bool.false_eq_true, if_false] <;> omega

/-- What the client is told: exactly one trailer, after a handler that returned while the client was there and whose error could be reported; and a
good one only for a stream counted as a success. -/
def Told (c : Call) : Prop :=
  (c.trailers = [] ∨ (c.trailers = [true] ∧ c.phase = .ok) ∨ (c.trailers = [false] ∧ c.phase = .error)) ∧
  (c.phase = .ok → c.trailers = [] → c.client = false) ∧ (c.client = true → c.refused = 0)

theorem C123_told (es : List Ev) : ∀ c ∈ (({} : Srv).run es).calls, Told c := by
  have key : ∀ (es : List Ev) (s : Srv), (∀ c ∈ s.calls, Told c) → ∀ c ∈ (s.run es).calls, Told c := by
    intro es
    induction es with
    | nil => intro s h; exact h
    | cons e es ih =>
      intro s h
      refine ih (s.step e) ?_
      have hset : ∀ (i : Nat) (c' : Call), Told c' → ∀ x ∈ s.calls.set i c', Told x := by
        intro i c' h' x hx
        rcases List.mem_or_eq_of_mem_set hx with hx | rfl
        · exact h x hx
        · exact h'
      have hget : ∀ i c, s.calls[i]? = some c → Told c := fun i c hc => h c (List.mem_of_getElem? hc)
      have hnone : ∀ c, Told c → c.phase = .decoding ∨ c.phase = .running → c.trailers = [] := by
        rintro c ⟨h1 | h1 | h1, _⟩ hp
        · exact h1
        · rw [h1.2] at hp; simp at hp
        · rw [h1.2] at hp; simp at hp
      cases e with
      | arrive =>
        intro c hc
        rcases List.mem_append.1 hc with hc | hc
        · exact h c hc
        · rw [List.mem_singleton.1 hc]; exact ⟨.inl rfl, nofun, fun _ => rfl⟩
      | decoded i ok =>
        unfold Srv.step
        dsimp only
        split
        · rename_i c hc
          split
          · rename_i hp
            have hn := hnone c (hget i c hc) (.inl hp)
            split <;> exact hset i _ ⟨.inl hn, nofun, (hget i c hc).2.2⟩
          · exact h
        · exact h
      | leave i =>
        unfold Srv.step
        dsimp only
        split
        · rename_i c hc
          refine hset i _ ?_
          obtain ⟨h1, h2, h3⟩ := hget i c hc
          refine ⟨?_, fun _ _ => rfl, nofun⟩
          rcases h1 with h1 | h1 | h1
          · exact .inl h1
          · exact .inr (.inl ⟨h1.1, by simp [Call.leave, h1.2]⟩)
          · exact .inr (.inr ⟨h1.1, by simp [Call.leave, h1.2]⟩)
        · exact h
      | send i =>
        unfold Srv.step
        dsimp only
        split
        · rename_i c hc
          split
          · rename_i hp
            exact hset i _ (hget i c hc)
          · exact h
        · exact h
      | sent i =>
        unfold Srv.step
        dsimp only
        split
        · rename_i c hc
          split
          · rename_i hp
            refine hset i _ ?_
            have hn := hnone c (hget i c hc) (.inr hp.1)
            obtain ⟨_, _, h3⟩ := hget i c hc
            unfold Call.sent
            split
            · exact ⟨.inl hn, fun hk => (by rw [hp.1] at hk; cases hk), h3⟩
            · rename_i hcl; exact ⟨.inl hn, fun hk => (by rw [hp.1] at hk; cases hk), fun hk => absurd hk hcl⟩
          · exact h
        · exact h
      | finish i r reporter =>
        unfold Srv.step
        dsimp only
        split
        · rename_i c hc
          split
          · rename_i hp
            have hp := hp.1
            have hn := hnone c (hget i c hc) (.inr hp)
            obtain ⟨_, _, h3⟩ := hget i c hc
            cases r with
            | ok =>
              refine hset i _ ?_
              unfold Call.finish
              by_cases hcl : c.client = true
              · exact ⟨.inr (.inl ⟨by simp [hcl, hn], rfl⟩), fun _ ht => by simp [hcl] at ht, h3⟩
              · exact ⟨.inl (by simp [hcl, hn]), fun _ _ => by simpa using hcl, h3⟩
            | error =>
              refine hset i _ ?_
              cases reporter with
              | false => exact ⟨.inl hn, nofun, h3⟩
              | true =>
                unfold Call.finish
                by_cases hcl : c.client = true
                · exact ⟨.inr (.inr ⟨by simp [hcl, hn], rfl⟩), nofun, h3⟩
                · exact ⟨.inl (by simp [hcl, hn]), nofun, h3⟩
            | panic => exact hset i _ ⟨.inl hn, nofun, h3⟩
          · exact h
        · exact h
      | shutdown =>
        intro c hc
        obtain ⟨d, hd, rfl⟩ := List.mem_map.1 hc
        split
        · rename_i ha
          have hn := hnone d (h d hd) (by simpa [Call.active] using ha)
          exact ⟨.inl hn, nofun, (h d hd).2.2⟩
        · exact h d hd
  exact key es {} nofun

/-- **C123.** What counts: a handler that returns `Ok` is one success, one that returns an error is one failure and one report, a request that is not valid is one
failure and no report; a client that goes away, a message and a new stream are none of these, and the handler of a client that has gone keeps running. -/
theorem C123_ends (s : Srv) (i : Nat) (c : Call) (hc : s.calls[i]? = some c) :
    (c.phase = .running → c.pending = false → ∀ b,
      ((s.step (.finish i .ok b)).successes, (s.step (.finish i .ok b)).failures, (s.step (.finish i .ok b)).reported) =
        (s.successes + 1, s.failures, s.reported) ∧
      ((s.step (.finish i .error b)).successes, (s.step (.finish i .error b)).failures, (s.step (.finish i .error b)).reported) =
        (s.successes, s.failures + 1, s.reported + 1)) ∧
    (c.phase = .decoding →
      ((s.step (.decoded i false)).successes, (s.step (.decoded i false)).failures, (s.step (.decoded i false)).reported) =
        (s.successes, s.failures + 1, s.reported) ∧
      ((s.step (.decoded i true)).successes, (s.step (.decoded i true)).failures, (s.step (.decoded i true)).reported) =
        (s.successes, s.failures, s.reported) ∧
      ((s.step (.decoded i true)).calls[i]?.map (·.phase)) = some .running) ∧
    (∀ e ∈ [Ev.arrive, .leave i, .send i, .sent i], (s.step e).successes = s.successes ∧ (s.step e).failures = s.failures ∧
      (s.step e).reported = s.reported ∧ (c.phase = .running → (s.step e).calls[i]?.map (·.phase) = some .running)) := by
  have hlt : i < s.calls.length := (List.getElem?_eq_some_iff.1 hc).1
  refine ⟨?_, ?_, ?_⟩
  · intro hp hq b
    simp [Srv.step, hc, hp, hq]
  · intro hp
    refine ⟨?_, ?_, ?_⟩
    · simp [Srv.step, hc, hp]
    · simp [Srv.step, hc, hp]
    · simp only [Srv.step, hc, hp, if_true]
      rw [List.getElem?_set_self hlt]
      rfl
  · intro e he
    simp only [List.mem_cons, List.not_mem_nil, or_false] at he
    rcases he with rfl | rfl | rfl | rfl
    · refine ⟨rfl, rfl, rfl, fun hp => ?_⟩
      show (s.calls ++ _)[i]?.map _ = _
      rw [List.getElem?_append_left hlt, hc, Option.map_some, hp]
    · unfold Srv.step
      dsimp only
      rw [hc]
      refine ⟨rfl, rfl, rfl, fun hp => ?_⟩
      dsimp only
      rw [List.getElem?_set_self hlt]
      simp [Call.leave, hp]
    · simp only [Srv.step, hc]
      split
      · refine ⟨rfl, rfl, rfl, fun hp => ?_⟩
        dsimp only
        rw [List.getElem?_set_self hlt]
        simp [hp]
      · exact ⟨rfl, rfl, rfl, fun hp => by simp [hc, hp]⟩
    · simp only [Srv.step, hc]
      split
      · refine ⟨rfl, rfl, rfl, fun hp => ?_⟩
        dsimp only
        rw [List.getElem?_set_self hlt]
        unfold Call.sent
        split <;> simp [hp]
      · exact ⟨rfl, rfl, rfl, fun hp => by simp [hc, hp]⟩

/-- **C123 (violated).** A handler that panics. -/
theorem C123_panic_violated :
    let s := ({} : Srv).run [.arrive, .decoded 0 true, .send 0, .sent 0, .finish 0 .panic true]
    s.initiations = 1 ∧ s.successes = 0 ∧ s.failures = 0 ∧ s.calls.all (fun c => !c.active) = true := by decide

/-- **C123 (violated).** A client that goes away while its request is being read. -/
theorem C123_dropped_violated :
    let s := ({} : Srv).run [.arrive, .leave 0]
    s.initiations = 1 ∧ s.successes = 0 ∧ s.failures = 0 ∧ s.calls.all (fun c => !c.active) = true := by decide

/-- Three streams: one good, one refused, one that fails after its client has gone. -/
example :
    let s := ({} : Srv).run [.arrive, .arrive, .decoded 0 true, .decoded 1 false, .arrive, .decoded 2 true, .send 0, .send 2, .sent 0, .sent 2, .leave 2, .send 2, .sent 2,
      .finish 2 .error true, .finish 0 .ok true]
    (s.initiations, s.successes, s.failures, s.messages, s.reported) = (3, 1, 2, 3, 1) ∧
    s.calls.map (·.trailers) = [[true], [], []] := by decide

end Verif.Grpc.Streams
