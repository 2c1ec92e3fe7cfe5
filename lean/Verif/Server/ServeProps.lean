import Verif.Server.Serve
import Verif.Server.LabelsProps

/-
C96: connections are counted, none is cut, all are told once, and a shutdown waits for them.
-/
namespace Verif.Server

def Conn.isServing : Conn → Bool
  | .serving _ => true
  | _ => false

/-- How often `graceful_shutdown` was called on the connection. -/
def Conn.told : Conn → Nat
  | .serving n => n
  | .closed n => n
  | .ended n => n

structure SInv (s : Srv) : Prop where
  total : s.total = s.conns.length
  active : s.active = (s.conns.countP Conn.isServing : Nat)
  once : ∀ c ∈ s.conns, c.told ≤ 1
  early : s.phase = .accepting → ∀ c ∈ s.conns, c.told = 0
  done : s.phase = .returned → ∀ c ∈ s.conns, c.isEnded = true

theorem sinv_step {s : Srv} (h : SInv s) (e : SrvEv) : SInv (s.step e) := by
  obtain ⟨h1, h2, h3, h4, h5⟩ := h
  cases e with
  | accept =>
    simp only [Srv.step]
    split
    · rename_i hp
      refine ⟨by simp [h1], ?_, ?_, ?_, ?_⟩
      · simp [h2, Conn.isServing]
      · intro c hc
        rcases List.mem_append.1 hc with hc | hc
        · exact h3 c hc
        · simp at hc; subst hc; simp [Conn.told]
      · intro _ c hc
        rcases List.mem_append.1 hc with hc | hc
        · exact h4 hp c hc
        · simp at hc; subst hc; rfl
      · intro hc; simp only at hc; rw [hp] at hc; cases hc
    · exact ⟨h1, h2, h3, h4, h5⟩
  | acceptError =>
    simp only [Srv.step]
    split
    · refine ⟨h1, h2, h3, by intro hc; simp at hc, by intro hc; simp at hc⟩
    · exact ⟨h1, h2, h3, h4, h5⟩
  | shutdown =>
    simp only [Srv.step]
    split
    · refine ⟨h1, h2, h3, by intro hc; simp at hc, by intro hc; simp at hc⟩
    · exact ⟨h1, h2, h3, h4, h5⟩
  | finish i =>
    simp only [Srv.step]
    split
    · rename_i n hn
      have hm := List.mem_of_getElem? hn
      have c := countP_set' Conn.isServing s.conns i _ (.closed n) hn
      simp only [Conn.isServing, if_true, Bool.false_eq_true, if_false] at c
      refine ⟨by simpa using h1, ?_, ?_, ?_, ?_⟩
      · simp only; omega
      · intro c hc
        rcases mem_set' hc with rfl | hc
        · have := h3 _ hm; exact this
        · exact h3 c hc
      · intro hp c hc
        rcases mem_set' hc with rfl | hc
        · have := h4 hp _ hm; exact this
        · exact h4 hp c hc
      · intro hp
        have := h5 hp _ hm
        simp [Conn.isEnded] at this
    · exact ⟨h1, h2, h3, h4, h5⟩
  | see i =>
    simp only [Srv.step]
    split
    · rename_i hn
      have hm := List.mem_of_getElem? hn
      split
      · rename_i hs
        have c := countP_set' Conn.isServing s.conns i _ (.serving 1) hn
        simp only [Conn.isServing, if_true] at c
        refine ⟨by simpa using h1, ?_, ?_, ?_, ?_⟩
        · simp only; omega
        · intro c hc
          rcases mem_set' hc with rfl | hc
          · simp [Conn.told]
          · exact h3 c hc
        · intro hp
          simp only at hp
          simp [Srv.signalled, hp] at hs
        · intro hp
          have := h5 hp _ hm
          simp [Conn.isEnded] at this
      · exact ⟨h1, h2, h3, h4, h5⟩
    · exact ⟨h1, h2, h3, h4, h5⟩
  | endTask i =>
    simp only [Srv.step]
    split
    · rename_i n hn
      have hm := List.mem_of_getElem? hn
      have c := countP_set' Conn.isServing s.conns i _ (.ended n) hn
      simp only [Conn.isServing, Bool.false_eq_true, if_false] at c
      refine ⟨by simpa using h1, ?_, ?_, ?_, ?_⟩
      · simp only; omega
      · intro c hc
        rcases mem_set' hc with rfl | hc
        · have := h3 _ hm; exact this
        · exact h3 c hc
      · intro hp c hc
        rcases mem_set' hc with rfl | hc
        · have := h4 hp _ hm; exact this
        · exact h4 hp c hc
      · intro hp
        have := h5 hp _ hm
        simp [Conn.isEnded] at this
    · exact ⟨h1, h2, h3, h4, h5⟩
  | drained =>
    simp only [Srv.step]
    split
    · rename_i hd
      rw [Bool.and_eq_true] at hd
      refine ⟨h1, h2, h3, by intro hc; simp at hc, ?_⟩
      intro _
      exact List.all_eq_true.1 hd.2
    · exact ⟨h1, h2, h3, h4, h5⟩

theorem sinv_run : ∀ (es : List SrvEv) {s : Srv}, SInv s → SInv (s.run es)
  | [], _, h => h
  | e :: es, _, h => sinv_run es (sinv_step h e)

theorem sinv_init : SInv Srv.init :=
  ⟨rfl, rfl, by simp [Srv.init], by simp [Srv.init], by simp [Srv.init]⟩

/-- **C96 (counted).** At any time the counter is the number of connections accepted, and the gauge the number of those still served. -/
theorem C96_counted (es : List SrvEv) :
    let s := Srv.init.run es
    s.total = s.conns.length ∧ s.active = ((s.conns.filter fun c => match c with | .serving _ => true | _ => false).length : Nat) := by
  have h := sinv_run es sinv_init
  refine ⟨h.total, ?_⟩
  rw [h.active, List.countP_eq_length_filter]
  congr 2

/-- **C96 (graceful).** When the server returns after a shutdown, every connection it ever accepted has finished and its task has ended,
and the gauge is zero. -/
theorem C96_graceful (es : List SrvEv) (h : (Srv.init.run es).phase = .returned) :
    (∀ c ∈ (Srv.init.run es).conns, ∃ n, c = .ended n) ∧ (Srv.init.run es).active = 0 := by
  have hi := sinv_run es sinv_init
  have hd := hi.done h
  have he : ∀ c ∈ (Srv.init.run es).conns, ∃ n, c = .ended n := by
    intro c hc
    have := hd c hc
    cases c with
    | ended n => exact ⟨n, rfl⟩
    | serving n => simp [Conn.isEnded] at this
    | closed n => simp [Conn.isEnded] at this
  refine ⟨he, ?_⟩
  rw [hi.active]
  have : (Srv.init.run es).conns.countP Conn.isServing = 0 := by
    rw [List.countP_eq_zero]
    intro c hc
    obtain ⟨n, rfl⟩ := he c hc
    simp [Conn.isServing]
  rw [this]; rfl

/-- **C96 (told once).** No connection is told to shut down before the server is, and none more than once. -/
theorem C96_told (es : List SrvEv) :
    (∀ c ∈ (Srv.init.run es).conns, ∀ n, (c = .serving n ∨ c = .closed n ∨ c = .ended n) → n ≤ 1) ∧
    ((Srv.init.run es).phase = .accepting → ∀ c ∈ (Srv.init.run es).conns, c = .serving 0 ∨ c = .closed 0 ∨ c = .ended 0) := by
  have hi := sinv_run es sinv_init
  refine ⟨?_, ?_⟩
  · intro c hc n hn
    have := hi.once c hc
    rcases hn with rfl | rfl | rfl <;> exact this
  · intro hp c hc
    have := hi.early hp c hc
    cases c <;> simp only [Conn.told] at this <;> subst this <;> simp

/-- **C96 (not cut).** A connection leaves its loop only when it has finished: no other event ends it, whatever phase the server is in. -/
theorem C96_not_cut (s : Srv) (e : SrvEv) (i n : Nat) (h : s.conns[i]? = some (.serving n)) (he : e ≠ .finish i) :
    ∃ m, (s.step e).conns[i]? = some (.serving m) := by
  have hlt : i < s.conns.length := (List.getElem?_eq_some_iff.1 h).1
  cases e with
  | accept =>
    simp only [Srv.step]; split
    · exact ⟨n, by simp only; rw [List.getElem?_append_left hlt]; exact h⟩
    · exact ⟨n, h⟩
  | acceptError => simp only [Srv.step]; split <;> exact ⟨n, h⟩
  | shutdown => simp only [Srv.step]; split <;> exact ⟨n, h⟩
  | finish j =>
    have hij : j ≠ i := fun e => he (by rw [e])
    simp only [Srv.step]
    split
    · exact ⟨n, by simp only; rw [List.getElem?_set_ne hij]; exact h⟩
    · exact ⟨n, h⟩
  | see j =>
    simp only [Srv.step]
    split
    · rename_i hj
      split
      · by_cases hij : j = i
        · subst hij; exact ⟨1, by simp [hlt]⟩
        · exact ⟨n, by simp only; rw [List.getElem?_set_ne hij]; exact h⟩
      · exact ⟨n, h⟩
    · exact ⟨n, h⟩
  | endTask j =>
    simp only [Srv.step]
    split
    · rename_i m hj
      by_cases hij : j = i
      · subst hij; rw [h] at hj; cases hj
      · exact ⟨n, by simp only; rw [List.getElem?_set_ne hij]; exact h⟩
    · exact ⟨n, h⟩
  | drained => simp only [Srv.step]; split <;> exact ⟨n, h⟩

/-- **C96 (told).** Once the server has left the accept loop, by shutdown or error, the turn of a connection that was not told makes it
`graceful_shutdown`, and a later turn changes nothing. -/
theorem C96_tells (s : Srv) (h : s.phase ≠ .accepting) (i : Nat) (hi : s.conns[i]? = some (.serving 0)) :
    (s.step (.see i)).conns[i]? = some (.serving 1) ∧ (s.step (.see i)).step (.see i) = s.step (.see i) := by
  have hs : s.signalled = true := by simpa [Srv.signalled] using h
  have hlt : i < s.conns.length := (List.getElem?_eq_some_iff.1 hi).1
  have e : s.step (.see i) = { s with conns := s.conns.set i (.serving 1) } := by simp only [Srv.step, hi, hs, if_true]
  have g : (s.conns.set i (.serving 1))[i]? = some (Conn.serving 1) := by simp [hlt]
  rw [e]
  refine ⟨g, ?_⟩
  simp only [Srv.step, g]

/-- **C96 (closed).** Once the server has left the accept loop it accepts no connection. -/
theorem C96_no_accept (s : Srv) (e : SrvEv) (h : s.phase ≠ .accepting) :
    (s.step e).conns.length = s.conns.length ∧ (s.step e).phase ≠ .accepting := by
  cases e <;> simp only [Srv.step, h, if_false]
  case drained => split <;> simp [h]
  all_goals first
    | exact ⟨rfl, h⟩
    | exact ⟨trivial, h⟩
    | (split <;> simp [h]; done)
    | (split <;> (try split) <;> simp [h])

/-- The end of a drain: the served connections are told and finish, and all tasks end. -/
def drainSchedule (n : Nat) : List SrvEv :=
  (List.range n).flatMap fun i => [.see i, .finish i, .endTask i]

theorem run_append' : ∀ (a b : List SrvEv) (s : Srv), s.run (a ++ b) = (s.run a).run b
  | [], _, _ => rfl
  | _ :: a, b, _ => run_append' a b _

theorem drain_one (s : Srv) (i : Nat) (hp : s.phase = .draining) (hi : i < s.conns.length) :
    let s' := s.run [.see i, .finish i, .endTask i]
    s'.phase = .draining ∧ s'.conns.length = s.conns.length ∧
      (∀ j, j ≠ i → s'.conns[j]? = s.conns[j]?) ∧ ∃ n, s'.conns[i]? = some (.ended n) := by
  obtain ⟨c, hc⟩ : ∃ c, s.conns[i]? = some c := ⟨s.conns[i], by simp [hi]⟩
  have hsig : s.signalled = true := by simp [Srv.signalled, hp]
  cases c with
  | ended n =>
    have : s.run [.see i, .finish i, .endTask i] = s := by simp [Srv.run, Srv.step, hc]
    rw [this]
    exact ⟨hp, rfl, fun _ _ => rfl, n, hc⟩
  | closed n =>
    have : s.run [.see i, .finish i, .endTask i] = { s with conns := s.conns.set i (.ended n) } := by
      simp [Srv.run, Srv.step, hc]
    rw [this]
    refine ⟨hp, by simp, ?_, n, by simp [hi]⟩
    intro j hj; simp only; rw [List.getElem?_set_ne (Ne.symm hj)]
  | serving n =>
    by_cases hn : n = 0
    · subst hn
      have : s.run [.see i, .finish i, .endTask i] =
          { s with conns := ((s.conns.set i (.serving 1)).set i (.closed 1)).set i (.ended 1), active := s.active - 1 } := by
        have e1 : s.step (.see i) = { s with conns := s.conns.set i (.serving 1) } := by
          simp only [Srv.step, hc, hsig, if_true]
        have g1 : (s.conns.set i (.serving 1))[i]? = some (Conn.serving 1) := by simp [hi]
        have g2 : ((s.conns.set i (.serving 1)).set i (.closed 1))[i]? = some (Conn.closed 1) := by simp [hi]
        simp only [Srv.run, e1]
        simp only [Srv.step, g1, g2]
      rw [this]
      refine ⟨hp, by simp, ?_, 1, by simp [hi]⟩
      intro j hj; simp only; rw [List.getElem?_set_ne (Ne.symm hj), List.getElem?_set_ne (Ne.symm hj),
        List.getElem?_set_ne (Ne.symm hj)]
    · have : s.run [.see i, .finish i, .endTask i] =
          { s with conns := (s.conns.set i (.closed n)).set i (.ended n), active := s.active - 1 } := by
        have hsee : s.step (.see i) = s := by
          simp only [Srv.step, hc]
          split
          · rename_i he; simp at he; exact absurd he hn
          · rfl
        have g2 : (s.conns.set i (.closed n))[i]? = some (Conn.closed n) := by simp [hi]
        simp only [Srv.run, hsee]
        simp only [Srv.step, hc, g2]
      rw [this]
      refine ⟨hp, by simp, ?_, n, by simp [hi]⟩
      intro j hj; simp only; rw [List.getElem?_set_ne (Ne.symm hj), List.getElem?_set_ne (Ne.symm hj)]

theorem drain_some : ∀ (k : Nat) (s : Srv), s.phase = .draining → k ≤ s.conns.length →
    let s' := s.run (drainSchedule k)
    s'.phase = .draining ∧ s'.conns.length = s.conns.length ∧ ∀ j, j < k → ∃ n, s'.conns[j]? = some (.ended n)
  | 0, s, hp, _ => by simp [drainSchedule, Srv.run, hp]
  | k + 1, s, hp, hk => by
    have ih := drain_some k s hp (by omega)
    have hsched : drainSchedule (k + 1) = drainSchedule k ++ [.see k, .finish k, .endTask k] := by
      simp [drainSchedule, List.range_succ]
    rw [hsched, run_append']
    have h1 := drain_one (s.run (drainSchedule k)) k ih.1 (by rw [ih.2.1]; omega)
    refine ⟨h1.1, h1.2.1.trans ih.2.1, ?_⟩
    intro j hj
    by_cases hjk : j = k
    · subst hjk; exact h1.2.2.2
    · rw [h1.2.2.1 j hjk]; exact ih.2.2 j (by omega)

/-- **C96 (returns).** From any state of a drain the server returns once the connections have finished. -/
theorem C96_returns (s : Srv) (hp : s.phase = .draining) :
    (s.run (drainSchedule s.conns.length ++ [.drained])).phase = .returned := by
  have h := drain_some s.conns.length s hp (Nat.le_refl _)
  rw [run_append']
  have hall : (s.run (drainSchedule s.conns.length)).conns.all Conn.isEnded = true := by
    rw [List.all_eq_true]
    intro c hc
    obtain ⟨j, hj⟩ := List.mem_iff_getElem?.1 hc
    have hlt := (List.getElem?_eq_some_iff.1 hj).1
    obtain ⟨n, hn⟩ := h.2.2 j (by rw [h.2.1] at hlt; exact hlt)
    rw [hn] at hj; cases hj; rfl
  simp only [Srv.run, Srv.step]
  rw [hall, h.1]; rfl

/-- **C96 violated.** One error of the listener ends the server while connections are still served: it returns at once, without
waiting. -/
theorem C96_accept_error_violated : ∃ es : List SrvEv,
    (Srv.init.run es).phase = .failed ∧ (Srv.init.run es).active = 1 ∧ ∃ c ∈ (Srv.init.run es).conns, c = .serving 0 :=
  ⟨[.accept, .acceptError], by decide, by decide, .serving 0, by decide, rfl⟩

example : (Srv.init.run [.accept, .accept, .finish 0, .shutdown, .see 1, .see 1, .finish 1, .endTask 0, .endTask 1, .drained]) =
    ⟨.returned, [.ended 0, .ended 1], 2, 0⟩ := by decide

end Verif.Server
