import Verif.Session.Stamp
import Verif.Session.Props

/-
C127: the session of logs with the fixed strategy (bd-session/src/fixed.rs), with the same queue and log task as in Verif.Session.Stamp
(bd-logger/src/async_log_buffer.rs:353-468).  The identifiers come from the application's callback (fixed.rs:48-71): an event that may
need one says which one it would get.
-/
namespace Verif.Session.StampF
open Verif.Session.Stamp (Item)

structure S where
  fix : Fixed := ⟨none, none⟩
  /-- logs in the queue: when they were logged, and the expected session of their override -/
  queue : List (Nat × Option Nat) := []
  trace : List Item := []
  deriving DecidableEq, Repr

inductive Ev where
  /-- a log is logged; `fits`: there is room in the queue -/
  | call (override : Option Nat) (fits : Bool)
  /-- the log task takes one; `metadata`: the platform provides its metadata -/
  | take (gen : Nat) (wok metadata : Bool)
  /-- anything done with the strategy by others -/
  | op (o : FixedOp)
  deriving DecidableEq, Repr

/-- `session_id` called for a log (async_log_buffer.rs:381, 430). -/
def S.stamp (s : S) (gen : Nat) (wok : Bool) (called : Nat) (q : List (Nat × Option Nat)) : S :=
  { fix := (s.fix.sessionId gen wok).1, queue := q, trace := s.trace ++ [⟨(s.fix.sessionId gen wok).2, some called, true⟩] }

/-- What a caller is handed out.  An identifier made up for a call from inside the callback (fixed.rs:77-84) is no session. -/
def handed (f : Fixed) : FixedOp → List Item
  | .sessionId gen wok => [⟨(f.sessionId gen wok).2, none, true⟩]
  | .startNew gen wok => [⟨(f.startNew gen wok).2, none, true⟩]
  | .sessionIdInCallback gen => [⟨gen, none, false⟩]
  | _ => []

def S.step (s : S) : Ev → S
  | .call override fits => if fits then { s with queue := s.queue ++ [(s.trace.length, override)] } else s
  | .take gen wok metadata => match s.queue with
    | [] => s
    | (called, override) :: q =>
      if metadata then
        match override with
        | none => s.stamp gen wok called q
        | some o =>
          if s.fix.previous = some o then { s with queue := q, trace := s.trace ++ [⟨o, some called, false⟩] }
          else s.stamp gen wok called q
      else { s with queue := q }
  | .op o => { fix := (s.fix.step o).1, queue := if o = .restart then [] else s.queue, trace := s.trace ++ handed s.fix o }

def S.run (s : S) (es : List Ev) : S := es.foldl S.step s

/-! ### Steps seen from outside -/

/-- The identifiers the callback would return. -/
def gens : Ev → List Nat
  | .take gen _ _ => [gen]
  | .op (.sessionId gen _) => [gen]
  | .op (.startNew gen _) => [gen]
  | _ => []

/-- No new session and no new process. -/
def Stays : Ev → Prop
  | .op (.startNew _ _) => False
  | .op .restart => False
  | _ => True

/-- What a step does: nothing plain is handed out and the session stays or ends; or one identifier is handed out, which is that of the
session afterwards: the one from before, or a new one. -/
theorem step_cases (s : S) (e : Ev) :
    (∃ it, (s.step e).trace = s.trace ++ it ∧ (∀ x ∈ it, x.plain = false ∧ ∀ n, x.log = some n → (n, some x.id) ∈ s.queue) ∧
      ((s.step e).fix.live = s.fix.live ∨ (e = .op .restart ∧ (s.step e).fix.live = none))) ∨
    (∃ l x, (s.step e).trace = s.trace ++ [x] ∧ x.plain = true ∧ x.id = l.id ∧ (∀ n, x.log = some n → ∃ ov, (n, ov) ∈ s.queue) ∧
      (s.step e).fix.live = some l ∧
      (s.fix.live = some l ∨ (l.id ∈ gens e ∧ (s.fix.live = none ∨ ¬ Stays e)))) := by
  have hst : ∀ (gen : Nat) (wok : Bool) (called : Nat) (ov : Option Nat) (q : List (Nat × Option Nat)), (called, ov) ∈ s.queue →
      ∃ l x, (s.stamp gen wok called q).trace = s.trace ++ [x] ∧ x.plain = true ∧ x.id = l.id ∧ (∀ n, x.log = some n → ∃ ov, (n, ov) ∈ s.queue) ∧
      (s.stamp gen wok called q).fix.live = some l ∧ (s.fix.live = some l ∨ (l.id ∈ [gen] ∧ s.fix.live = none)) := by
    intro gen wok called ov q hm
    unfold S.stamp Fixed.sessionId
    cases hl : s.fix.live with
    | some l => exact ⟨l, _, rfl, rfl, rfl, fun n hn => by cases hn; exact ⟨ov, hm⟩, hl, .inl rfl⟩
    | none => exact ⟨⟨gen, s.fix.disk⟩, _, rfl, rfl, rfl, fun n hn => by cases hn; exact ⟨ov, hm⟩, rfl, .inr ⟨List.mem_singleton.2 rfl, rfl⟩⟩
  have hst' : ∀ (gen : Nat) (wok md : Bool) (called : Nat) (ov : Option Nat) (q : List (Nat × Option Nat)), (called, ov) ∈ s.queue →
      ∃ l x, (s.stamp gen wok called q).trace = s.trace ++ [x] ∧ x.plain = true ∧ x.id = l.id ∧ (∀ n, x.log = some n → ∃ ov, (n, ov) ∈ s.queue) ∧
      (s.stamp gen wok called q).fix.live = some l ∧ (s.fix.live = some l ∨ (l.id ∈ gens (.take gen wok md) ∧ (s.fix.live = none ∨ ¬ Stays (.take gen wok md)))) := by
    intro gen wok md called ov q hm
    obtain ⟨l, x, h1, h2, h3, h4, h5, h6⟩ := hst gen wok called ov q hm
    exact ⟨l, x, h1, h2, h3, h4, h5, h6.imp id fun h => ⟨h.1, .inl h.2⟩⟩
  cases e with
  | call ov fits =>
    refine .inl ⟨[], ?_, fun x h => (nomatch h), .inl ?_⟩ <;> dsimp only [S.step] <;> split <;> simp
  | take gen wok md =>
    dsimp only [S.step]
    split
    · exact .inl ⟨[], by simp, fun x h => (nomatch h), .inl rfl⟩
    · rename_i called ov q hq
      have hm : (called, ov) ∈ s.queue := by rw [hq]; exact .head _
      split
      · cases ov with
        | none => exact .inr (hst' gen wok md called none q hm)
        | some o =>
          dsimp only
          split
          · refine .inl ⟨[⟨o, some called, false⟩], rfl, fun x hx => ?_, .inl rfl⟩
            rw [List.mem_singleton.1 hx]
            exact ⟨rfl, fun n hn => by cases hn; exact hm⟩
          · exact .inr (hst' gen wok md called (some o) q hm)
      · exact .inl ⟨[], by simp, fun x h => (nomatch h), .inl rfl⟩
  | op o =>
    cases o with
    | sessionId gen wok =>
      right
      dsimp only [S.step, handed, Fixed.step, Fixed.sessionId]
      cases hl : s.fix.live with
      | some l => exact ⟨l, _, rfl, rfl, rfl, fun n hn => (nomatch hn), hl, .inl rfl⟩
      | none => exact ⟨⟨gen, s.fix.disk⟩, _, rfl, rfl, rfl, fun n hn => (nomatch hn), rfl, .inr ⟨List.mem_singleton.2 rfl, .inl rfl⟩⟩
    | startNew gen wok =>
      exact .inr ⟨⟨gen, s.fix.previous⟩, _, rfl, rfl, rfl, fun n hn => (nomatch hn), rfl, .inr ⟨List.mem_singleton.2 rfl, .inr id⟩⟩
    | sessionIdInCallback gen =>
      refine .inl ⟨[⟨gen, none, false⟩], rfl, fun x hx => ?_, .inl rfl⟩
      rw [List.mem_singleton.1 hx]
      exact ⟨rfl, fun n hn => (nomatch hn)⟩
    | startNewInCallback => exact .inl ⟨[], rfl, fun x h => (nomatch h), .inl rfl⟩
    | previous => exact .inl ⟨[], rfl, fun x h => (nomatch h), .inl rfl⟩
    | restart => exact .inl ⟨[], rfl, fun x h => (nomatch h), .inr ⟨rfl, rfl⟩⟩
    | lose => exact .inl ⟨[], rfl, fun x h => (nomatch h), .inl rfl⟩

/-! ### Blocks -/

def Blk (t : List Item) : Prop :=
  ∀ (i j k : Nat) (x y z : Item), i ≤ j → j ≤ k → t[i]? = some x → t[j]? = some y → t[k]? = some z →
    x.plain = true → y.plain = true → z.plain = true → x.id = z.id → y.id = x.id

/-- From the first use of `a` on there is no use of another one. -/
def Suffix (t : List Item) (a : Nat) : Prop :=
  ∀ (i j : Nat) (x y : Item), i ≤ j → t[i]? = some x → t[j]? = some y → x.plain = true → y.plain = true → x.id = a → y.id = a

theorem getElem?_append_cases {t it : List Item} {i : Nat} {x : Item} (h : (t ++ it)[i]? = some x) : t[i]? = some x ∨ (t.length ≤ i ∧ x ∈ it) := by
  by_cases hi : i < t.length
  · left; rwa [List.getElem?_append_left hi] at h
  · right
    rw [List.getElem?_append_right (by omega)] at h
    exact ⟨by omega, List.mem_of_getElem? h⟩

theorem getElem?_lt {t : List Item} {i : Nat} {x : Item} (h : t[i]? = some x) : i < t.length := by
  rcases Nat.lt_or_ge i t.length with h' | h'
  · exact h'
  · rw [List.getElem?_eq_none h'] at h; cases h

theorem Blk.other {t it : List Item} (h : Blk t) (hp : ∀ x ∈ it, x.plain = false) : Blk (t ++ it) := by
  have key : ∀ {i : Nat} {x : Item}, (t ++ it)[i]? = some x → x.plain = true → t[i]? = some x := by
    intro i x hx px
    rcases getElem?_append_cases hx with h' | ⟨_, h'⟩
    · exact h'
    · rw [hp x h'] at px; cases px
  intro i j k x y z hij hjk hx hy hz px py pz he
  exact h i j k x y z hij hjk (key hx px) (key hy py) (key hz pz) px py pz he

theorem Suffix.other {t it : List Item} {a : Nat} (h : Suffix t a) (hp : ∀ x ∈ it, x.plain = false) : Suffix (t ++ it) a := by
  have key : ∀ {i : Nat} {x : Item}, (t ++ it)[i]? = some x → x.plain = true → t[i]? = some x := by
    intro i x hx px
    rcases getElem?_append_cases hx with h' | ⟨_, h'⟩
    · exact h'
    · rw [hp x h'] at px; cases px
  intro i j x y hij hx hy px py he
  exact h i j x y hij (key hx px) (key hy py) px py he

theorem Suffix.add {t : List Item} {a : Nat} (h : Suffix t a) (w : Item) (hw : w.id = a) : Suffix (t ++ [w]) a := by
  intro i j x y hij hx hy px py he
  rcases getElem?_append_cases hy with h' | ⟨_, h'⟩
  · rcases getElem?_append_cases hx with h'' | ⟨h'', _⟩
    · exact h i j x y hij h'' h' px py he
    · have := getElem?_lt h'; omega
  · rw [List.mem_singleton.1 h', hw]

theorem Blk.add {t : List Item} {a : Nat} (hb : Blk t) (hs : Suffix t a) (w : Item) (hw : w.id = a) : Blk (t ++ [w]) := by
  intro i j k x y z hij hjk hx hy hz px py pz he
  rcases getElem?_append_cases hz with h' | ⟨_, h'⟩
  · have hk := getElem?_lt h'
    rw [List.getElem?_append_left (by omega)] at hx hy
    exact hb i j k x y z hij hjk hx hy h' px py pz he
  · have hz' := List.mem_singleton.1 h'
    have : z.id = a := by rw [hz', hw]
    have := hs.add w hw i j x y hij hx hy px py (by omega)
    omega

theorem Suffix.fresh {t : List Item} {a : Nat} (h : ∀ x ∈ t, x.plain = true → x.id ≠ a) : Suffix t a := by
  intro i j x y _ hx _ px _ he
  exact absurd he (h x (List.mem_of_getElem? hx) px)

structure Inv (s : S) (rest : List Nat) : Prop where
  blk : Blk s.trace
  cur : ∀ l, s.fix.live = some l → Suffix s.trace l.id
  fresh : ∀ g ∈ rest, ∀ x ∈ s.trace, x.plain = true → x.id ≠ g
  live : ∀ l, s.fix.live = some l → l.id ∉ rest
  queue : ∀ q ∈ s.queue, q.1 ≤ s.trace.length
  log : ∀ (p : Nat) (x : Item), s.trace[p]? = some x → ∀ n, x.log = some n → n ≤ p

theorem queue_step (s : S) (e : Ev) (h : ∀ q ∈ s.queue, q.1 ≤ s.trace.length) : ∀ q ∈ (s.step e).queue, q.1 ≤ (s.step e).trace.length := by
  have hsub : ∀ q ∈ (s.step e).queue, q ∈ s.queue ∨ q.1 = s.trace.length := by
    cases e with
    | call ov fits =>
      dsimp only [S.step]
      split
      · intro q hq
        rcases List.mem_append.1 hq with h' | h'
        · exact .inl h'
        · rw [List.mem_singleton.1 h']; exact .inr rfl
      · exact fun q hq => .inl hq
    | take gen wok md =>
      dsimp only [S.step]
      cases hq : s.queue with
      | nil => dsimp only; rw [hq]; exact fun q hq => .inl hq
      | cons a q =>
        obtain ⟨called, ov⟩ := a
        dsimp only
        have : ∀ x ∈ q, x ∈ (called, ov) :: q ∨ x.1 = s.trace.length := fun x hx => .inl (.tail _ hx)
        split
        · cases ov with
          | none => exact this
          | some o => dsimp only; split <;> exact this
        · exact this
    | op o =>
      dsimp only [S.step]
      split
      · intro q hq; cases hq
      · exact fun q hq => .inl hq
  have hlen : s.trace.length ≤ (s.step e).trace.length := by
    rcases step_cases s e with ⟨it, h1, _⟩ | ⟨l, x, h1, _⟩ <;> rw [h1] <;> simp
  intro q hq
  rcases hsub q hq with h' | h'
  · exact Nat.le_trans (h q h') hlen
  · omega

theorem Inv.step {s : S} {e : Ev} {rest : List Nat} (h : Inv s (gens e ++ rest)) (hn : (gens e ++ rest).Nodup) : Inv (s.step e) rest := by
  obtain ⟨hb, hc, hf, hl, hq, hg⟩ := h
  have hlog : ∀ (it : List Item), (∀ x ∈ it, ∀ n, x.log = some n → n ≤ s.trace.length) →
      ∀ (p : Nat) (x : Item), (s.trace ++ it)[p]? = some x → ∀ n, x.log = some n → n ≤ p := by
    intro it hit p x hx n hn
    rcases getElem?_append_cases hx with h' | ⟨h1, h2⟩
    · exact hg p x h' n hn
    · exact Nat.le_trans (hit x h2 n hn) h1
  rcases step_cases s e with ⟨it, h1, h2, h3⟩ | ⟨l, x, h1, h2, h3, h4, h5, h6⟩
  · have hp : ∀ x ∈ it, x.plain = false := fun x hx => (h2 x hx).1
    refine ⟨h1 ▸ hb.other hp, ?_, ?_, ?_, queue_step s e hq, h1 ▸ hlog it fun x hx n hn => ?_⟩
    · intro l hl'
      rcases h3 with h3 | ⟨_, h3⟩
      · rw [h1]; exact (hc l (h3 ▸ hl')).other hp
      · rw [h3] at hl'; cases hl'
    · intro g hg' x hx px
      rw [h1] at hx
      rcases List.mem_append.1 hx with h' | h'
      · exact hf g (List.mem_append_right _ hg') x h' px
      · rw [hp x h'] at px; cases px
    · intro l hl' hm
      rcases h3 with h3 | ⟨_, h3⟩
      · exact hl l (h3 ▸ hl') (List.mem_append_right _ hm)
      · rw [h3] at hl'; cases hl'
    · exact hq _ ((h2 x hx).2 n hn)
  · have hs : Suffix s.trace l.id := by
      rcases h6 with h6 | ⟨h6, _⟩
      · exact hc l h6
      · exact Suffix.fresh (hf l.id (List.mem_append_left _ h6))
    have hr : l.id ∉ rest := by
      rcases h6 with h6 | ⟨h6, _⟩
      · exact fun hm => hl l h6 (List.mem_append_right _ hm)
      · exact fun hm => (List.nodup_append.1 hn).2.2 l.id h6 l.id hm rfl
    refine ⟨h1 ▸ hb.add hs x h3, ?_, ?_, ?_, queue_step s e hq, h1 ▸ hlog [x] fun y hy n hn => ?_⟩
    · intro l' hl'
      rw [h5] at hl'; cases hl'
      rw [h1]; exact hs.add x h3
    · intro g hg' y hy py he
      rw [h1] at hy
      rcases List.mem_append.1 hy with h' | h'
      · exact hf g (List.mem_append_right _ hg') y h' py he
      · rw [List.mem_singleton.1 h', h3] at he
        exact hr (he ▸ hg')
    · intro l' hl' hm
      rw [h5] at hl'; cases hl'
      exact hr hm
    · rw [List.mem_singleton.1 hy] at hn
      obtain ⟨ov, hm⟩ := h4 n hn
      exact hq _ hm

theorem Inv.run : ∀ (es : List Ev) {s : S} {rest : List Nat}, Inv s (es.flatMap gens ++ rest) → (es.flatMap gens ++ rest).Nodup → Inv (s.run es) rest := by
  intro es
  induction es with
  | nil => intro s rest h _; exact h
  | cons e es ih =>
    intro s rest h hn
    rw [List.flatMap_cons, List.append_assoc] at h hn
    exact ih (h.step hn) (List.nodup_append.1 hn).2.1

theorem Inv.new (rest : List Nat) : Inv {} rest :=
  ⟨fun i j k x y z _ _ hx => by simp at hx, fun l h => (nomatch h), fun g _ x hx => (nomatch hx), fun l h => (nomatch h),
    fun q hq => (nomatch hq), fun p x hx => by simp at hx⟩

theorem inv_of (es : List Ev) (h : (es.flatMap gens).Nodup) : Inv (({} : S).run es) [] :=
  Inv.run es (Inv.new _) (by rwa [List.append_nil])

/-- **C127.** If the callback never returns the same identifier twice, between two uses of a session, by logs or callers, there is no use of
another one, whether or not the sessions can be stored.  (The identifiers an event would get but does not need are arbitrary, and can be
chosen different from all others.) -/
theorem C127_block (es : List Ev) (h : (es.flatMap gens).Nodup) (i j k : Nat) (x y z : Item) (hij : i ≤ j) (hjk : j ≤ k) :
    let t := (({} : S).run es).trace
    t[i]? = some x → t[j]? = some y → t[k]? = some z → x.plain = true → y.plain = true → z.plain = true → x.id = z.id → y.id = x.id :=
  fun hx hy hz px py pz he => (inv_of es h).blk i j k x y z hij hjk hx hy hz px py pz he

/-- **C127 (partial).** A log is given the session that was current when it was logged, or one that began later.  Missing: that it is the one
that was current (`C127_called_violated`). -/
theorem C127_not_earlier_partial (es : List Ev) (h : (es.flatMap gens).Nodup) (r q p n : Nat) (x y z : Item) :
    let t := (({} : S).run es).trace
    t[p]? = some z → z.log = some n → z.plain = true → t[q]? = some y → y.plain = true → q < n → t[r]? = some x → x.plain = true → r ≤ q →
    x.id = z.id → y.id = z.id := by
  intro t hz hl pz hy py hqn hx px hrq he
  have hnp : n ≤ p := (inv_of es h).log p z hz n hl
  have := C127_block es h r q p x y z hrq (by omega) hx hy hz px py pz he
  omega

/-- From the start of a session until the application starts another one or the process ends, it is the only one that is handed out. -/
theorem same_of_live : ∀ (mid : List Ev), (∀ e ∈ mid, Stays e) → ∀ (s : S) (l : FLive), s.fix.live = some l →
    (s.run mid).fix.live = some l ∧ ∃ it, (s.run mid).trace = s.trace ++ it ∧ ∀ x ∈ it, x.plain = true → x.id = l.id := by
  intro mid
  induction mid with
  | nil => intro _ s l hl; exact ⟨hl, [], by simp [S.run], fun x h => (nomatch h)⟩
  | cons e mid ih =>
    intro hm s l hl
    have he : Stays e := hm e (.head _)
    have hm' : ∀ e ∈ mid, Stays e := fun e' h' => hm e' (.tail _ h')
    rcases step_cases s e with ⟨it, h1, h2, h3⟩ | ⟨l', x, h1, h2, h3, h4, h5, h6⟩
    · have hl' : (s.step e).fix.live = some l := by
        rcases h3 with h3 | ⟨h3, _⟩
        · rw [h3, hl]
        · rw [h3] at he; exact absurd he id
      obtain ⟨a, it', b, c⟩ := ih hm' (s.step e) l hl'
      refine ⟨a, it ++ it', by rw [← List.append_assoc, ← h1]; exact b, fun x hx px => ?_⟩
      rcases List.mem_append.1 hx with h' | h'
      · rw [(h2 x h').1] at px; cases px
      · exact c x h' px
    · have hl' : l' = l := by
        rcases h6 with h6 | ⟨_, h6 | h6⟩
        · rw [hl] at h6; cases h6; rfl
        · rw [hl] at h6; cases h6
        · exact absurd he h6
      subst hl'
      obtain ⟨a, it', b, c⟩ := ih hm' (s.step e) l' h5
      refine ⟨a, x :: it', by rw [List.append_cons, ← h1]; exact b, fun y hy py => ?_⟩
      rcases List.mem_cons.1 hy with h' | h'
      · rw [h', h3]
      · exact c y h' py

/-- **C127.** A log that is processed before the application starts another session is given the session that was current when it was logged:
after an identifier was handed out, all that follow are the same until then. -/
theorem C127_current (s : S) (e : Ev) (x : Item) (mid : List Ev) (hx : (s.step e).trace = s.trace ++ [x]) (px : x.plain = true)
    (hm : ∀ e ∈ mid, Stays e) :
    ∃ it, ((s.step e).run mid).trace = s.trace ++ [x] ++ it ∧ ∀ y ∈ it, y.plain = true → y.id = x.id := by
  rcases step_cases s e with ⟨it, h1, h2, _⟩ | ⟨l, x', h1, h2, h3, _, h5, _⟩
  · rw [h1] at hx
    have := List.append_cancel_left hx
    rw [(h2 x (this ▸ List.mem_singleton.2 rfl)).1] at px; cases px
  · rw [h1] at hx
    have hxx : x' = x := by have := List.append_cancel_left hx; simpa using this
    obtain ⟨_, it, b, c⟩ := same_of_live mid hm (s.step e) l h5
    exact ⟨it, by rw [b, h1, hxx], fun y hy py => by rw [c y hy py, ← hxx, h3]⟩

/-- **C127.** A process in which the application does not start a session has one session, whatever the callback would return later. -/
theorem C127_process (s : S) (mid : List Ev) (hm : ∀ e ∈ mid, Stays e) :
    ∃ it, ((s.step (.op .restart)).run mid).trace = s.trace ++ it ∧
      ∀ x ∈ it, ∀ y ∈ it, x.plain = true → y.plain = true → x.id = y.id := by
  have key : ∀ (mid : List Ev), (∀ e ∈ mid, Stays e) → ∀ s : S, s.fix.live = none →
      ∃ it, (s.run mid).trace = s.trace ++ it ∧ ∀ x ∈ it, ∀ y ∈ it, x.plain = true → y.plain = true → x.id = y.id := by
    intro mid
    induction mid with
    | nil => intro _ s _; exact ⟨[], by simp [S.run], fun x h => (nomatch h)⟩
    | cons e mid ih =>
      intro hm s hl
      have he : Stays e := hm e (.head _)
      have hm' : ∀ e ∈ mid, Stays e := fun e' h' => hm e' (.tail _ h')
      rcases step_cases s e with ⟨it, h1, h2, h3⟩ | ⟨l, x, h1, h2, h3, h4, h5, h6⟩
      · have hl' : (s.step e).fix.live = none := by
          rcases h3 with h3 | ⟨_, h3⟩
          · rw [h3, hl]
          · exact h3
        obtain ⟨it', b, c⟩ := ih hm' (s.step e) hl'
        refine ⟨it ++ it', by rw [← List.append_assoc, ← h1]; exact b, fun x hx y hy px py => ?_⟩
        rcases List.mem_append.1 hx with hx | hx
        · rw [(h2 x hx).1] at px; cases px
        · rcases List.mem_append.1 hy with hy | hy
          · rw [(h2 y hy).1] at py; cases py
          · exact c x hx y hy px py
      · obtain ⟨_, it', b, c⟩ := same_of_live mid hm' (s.step e) l h5
        have hall : ∀ y ∈ x :: it', y.plain = true → y.id = l.id := by
          intro y hy py
          rcases List.mem_cons.1 hy with h' | h'
          · rw [h', h3]
          · exact c y h' py
        refine ⟨x :: it', by rw [List.append_cons, ← h1]; exact b, fun y hy z hz py pz => ?_⟩
        rw [hall y hy py, hall z hz pz]
  obtain ⟨it, b, c⟩ := key mid hm (s.step (.op .restart)) rfl
  exact ⟨it, by rw [b]; simp [S.step, handed], c⟩

/-! ### Logs about the previous process -/

/-- Writes of the session state succeed and it is not deleted. -/
def Kept : Ev → Prop
  | .take _ wok _ => wok = true
  | .op (.sessionId _ wok) => wok = true
  | .op (.startNew _ wok) => wok = true
  | .op .lose => False
  | _ => True

def Near (f : Fixed) : Prop := ∀ l, f.live = some l → f.disk = some l.id

theorem near_sessionId {f : Fixed} (h : Near f) (gen : Nat) : Near (f.sessionId gen true).1 := by
  unfold Fixed.sessionId
  split
  · exact h
  · intro l hl; cases hl; rfl

theorem Near.step {s : S} {e : Ev} (h : Near s.fix) (he : Kept e) : Near (s.step e).fix := by
  cases e with
  | call ov fits => dsimp only [S.step]; split <;> exact h
  | take gen wok md =>
    change wok = true at he
    subst he
    dsimp only [S.step]
    split
    · exact h
    · split
      · split
        · exact near_sessionId h gen
        · split
          · exact h
          · exact near_sessionId h gen
      · exact h
  | op o =>
    cases o with
    | sessionId gen wok => change wok = true at he; subst he; exact near_sessionId h gen
    | startNew gen wok => change wok = true at he; subst he; intro l hl; cases hl; rfl
    | lose => exact absurd he id
    | restart => intro l hl; cases hl
    | sessionIdInCallback gen => exact h
    | startNewInCallback => exact h
    | previous => exact h

theorem Near.run : ∀ (es : List Ev) {s : S}, Near s.fix → (∀ e ∈ es, Kept e) → Near (s.run es).fix := by
  intro es
  induction es with
  | nil => intro s h _; exact h
  | cons e es ih => intro s h hk; exact ih (h.step (hk e (.head _))) fun e' h' => hk e' (.tail _ h')

/-- The process goes on and its state is not deleted. -/
def Same : Ev → Prop
  | .op .restart => False
  | .op .lose => False
  | _ => True

theorem previous_step (s : S) (e : Ev) (he : Same e) : (s.step e).fix.previous = s.fix.previous := by
  have hid : ∀ gen wok, (s.fix.sessionId gen wok).1.previous = s.fix.previous := by
    intro gen wok
    unfold Fixed.sessionId
    cases hl : s.fix.live with
    | some l => rfl
    | none => simp only [Fixed.previous, hl]
  cases e with
  | call ov fits => dsimp only [S.step]; split <;> rfl
  | take gen wok md =>
    dsimp only [S.step]
    split
    · rfl
    · split
      · split
        · exact hid gen wok
        · split
          · rfl
          · exact hid gen wok
      · rfl
  | op o =>
    cases o with
    | sessionId gen wok => exact hid gen wok
    | lose => exact absurd he id
    | restart => exact absurd he id
    | _ => rfl

theorem previous_run : ∀ (mid : List Ev) (s : S), (∀ e ∈ mid, Same e) → (s.run mid).fix.previous = s.fix.previous := by
  intro mid
  induction mid with
  | nil => intro s _; rfl
  | cons e mid ih => intro s h; exact (ih (s.step e) fun e' h' => h e' (.tail _ h')).trans (previous_step s e (h e (.head _)))

/-- **C127.** A log about the previous process, that is one that is logged for its session, is given that session, at whatever time in the
process it is processed, and the session of this process stays.  The session of the previous process is the one it handed out last:
after an identifier was handed out (`e`), the others (`idle`) until the end hand out no other. -/
theorem C127_previous (es : List Ev) (e : Ev) (x : Item) (idle mid : List Ev) (n gen : Nat) (wok : Bool) (q : List (Nat × Option Nat))
    (hk : ∀ e' ∈ es ++ e :: idle, Kept e') (hi : ∀ e' ∈ idle, Stays e') (hm : ∀ e' ∈ mid, Same e')
    (hx : ((({} : S).run es).step e).trace = (({} : S).run es).trace ++ [x]) (px : x.plain = true) :
    let s := (((({} : S).run (es ++ e :: idle)).step (.op .restart)).run mid)
    s.queue = (n, some x.id) :: q →
    (s.step (.take gen wok true)).trace = s.trace ++ [⟨x.id, some n, false⟩] ∧ (s.step (.take gen wok true)).fix = s.fix ∧
    (s.step (.take gen wok true)).queue = q := by
  intro s hq
  have hrun : ({} : S).run (es ++ e :: idle) = ((({} : S).run es).step e).run idle := by
    unfold S.run; rw [List.foldl_append]; rfl
  have hlive : ∃ l, (({} : S).run (es ++ e :: idle)).fix.live = some l ∧ l.id = x.id := by
    rcases step_cases (({} : S).run es) e with ⟨it, h1, h2, _⟩ | ⟨l, x', h1, h2, h3, _, h5, _⟩
    · rw [h1] at hx
      have := List.append_cancel_left hx
      rw [(h2 x (this ▸ List.mem_singleton.2 rfl)).1] at px; cases px
    · rw [h1] at hx
      have hxx : x' = x := by have := List.append_cancel_left hx; simpa using this
      exact ⟨l, by rw [hrun]; exact (same_of_live idle hi _ l h5).1, by rw [← h3, hxx]⟩
  obtain ⟨l, hl, hid⟩ := hlive
  have hnear : Near (({} : S).run (es ++ e :: idle)).fix := Near.run (es ++ e :: idle) (s := {}) (fun l h => (nomatch h)) hk
  have hp : s.fix.previous = some x.id := by
    rw [previous_run mid _ hm]
    show (({} : S).run (es ++ e :: idle)).fix.disk = _
    rw [hnear l hl, hid]
  dsimp only [S.step]
  rw [hq]
  dsimp only
  rw [if_pos rfl, if_pos hp]
  exact ⟨rfl, rfl, rfl⟩

/-! ### Which log is processed -/

/-- **C127.** A log without an override, or with one for another session than the previous one, uses the session strategy once; one with the
right override is given the session of the previous process; a log without metadata is not given any. -/
theorem C127_take (s : S) (gen : Nat) (wok : Bool) (called : Nat) (ov : Option Nat) (q : List (Nat × Option Nat)) (hq : s.queue = (called, ov) :: q) :
    (ov = none ∨ ov ≠ s.fix.previous → (s.step (.take gen wok true)).fix = (s.fix.sessionId gen wok).1 ∧
      (s.step (.take gen wok true)).trace = s.trace ++ [⟨(s.fix.sessionId gen wok).2, some called, true⟩]) ∧
    (∀ o, ov = some o → s.fix.previous = some o → (s.step (.take gen wok true)).fix = s.fix ∧
      (s.step (.take gen wok true)).trace = s.trace ++ [⟨o, some called, false⟩]) ∧
    (s.step (.take gen wok true)).queue = q ∧ s.step (.take gen wok false) = { s with queue := q } := by
  dsimp only [S.step]
  rw [hq]
  dsimp only
  rw [if_pos rfl, if_neg (by decide)]
  refine ⟨fun h => ?_, fun o ho hp => ?_, ?_, rfl⟩
  · cases ov with
    | none => exact ⟨rfl, rfl⟩
    | some o =>
      have : ¬ s.fix.previous = some o := fun e => by
        rcases h with h | h
        · cases h
        · exact h e.symm
      dsimp only
      rw [if_neg this]
      exact ⟨rfl, rfl⟩
  · subst ho
    dsimp only
    rw [if_pos hp]
    exact ⟨rfl, rfl⟩
  · cases ov with
    | none => rfl
    | some o => dsimp only; split <;> rfl

def isTake : Ev → Bool
  | .take _ _ _ => true
  | _ => false

theorem queue_run : ∀ (mid : List Ev) (s : S) (A B : List (Nat × Option Nat)), (∀ e ∈ mid, e ≠ .op .restart) → s.queue = A ++ B →
    mid.countP isTake ≤ A.length → ∃ C, (s.run mid).queue = A.drop (mid.countP isTake) ++ B ++ C := by
  intro mid
  induction mid with
  | nil => intro s A B _ hq _; exact ⟨[], by simpa [S.run] using hq⟩
  | cons e mid ih =>
    intro s A B hr hq hc
    have hr' : ∀ e ∈ mid, e ≠ .op .restart := fun e' h' => hr e' (.tail _ h')
    cases e with
    | call ov fits =>
      rw [List.countP_cons_of_neg (by simp [isTake])] at hc ⊢
      cases fits with
      | false => exact ih s A B hr' hq hc
      | true =>
        obtain ⟨C, h⟩ := ih (s.step (.call ov true)) A (B ++ [(s.trace.length, ov)]) hr' (by simp [S.step, hq]) hc
        exact ⟨[(s.trace.length, ov)] ++ C, by rw [show s.run (.call ov true :: mid) = (s.step (.call ov true)).run mid from rfl, h]; simp⟩
    | take gen wok md =>
      rw [List.countP_cons_of_pos (by rfl)] at hc ⊢
      cases A with
      | nil => simp at hc
      | cons a A =>
        obtain ⟨called, ov⟩ := a
        have hq' : (s.step (.take gen wok md)).queue = A ++ B := by
          have := C127_take s gen wok called ov (A ++ B) hq
          cases md
          · rw [this.2.2.2]
          · exact this.2.2.1
        obtain ⟨C, h⟩ := ih _ A B hr' hq' (by simp at hc; omega)
        exact ⟨C, by rw [show s.run (.take gen wok md :: mid) = (s.step (.take gen wok md)).run mid from rfl, h]; simp⟩
    | op o =>
      rw [List.countP_cons_of_neg (by simp [isTake])] at hc ⊢
      have ho : o ≠ .restart := fun h => hr (.op o) (.head _) (by rw [h])
      exact ih (s.step (.op o)) A B hr' (by dsimp only [S.step]; rw [if_neg ho]; exact hq) hc

/-- **C127.** Within a process every log that fits into the queue has its turn, with the override it was logged with: after as many others as
were waiting when it was logged. -/
theorem C127_turn (s : S) (ov : Option Nat) (mid : List Ev) (hr : ∀ e ∈ mid, e ≠ .op .restart) (hc : mid.countP isTake = s.queue.length) :
    ∃ q, ((s.step (.call ov true)).run mid).queue = (s.trace.length, ov) :: q := by
  obtain ⟨C, h⟩ := queue_run mid (s.step (.call ov true)) s.queue [(s.trace.length, ov)] hr rfl (Nat.le_of_eq hc)
  exact ⟨C, by rw [h, hc]; simp⟩

/-- **C127.** The logs waiting when the process ends are not given a session by a later process: until something is logged again, no log is. -/
theorem C127_restart (s : S) (es : List Ev) (h : ∀ e ∈ es, ∀ ov fits, e ≠ .call ov fits) :
    ((s.step (.op .restart)).run es).trace.filter (fun x => x.log.isSome) = s.trace.filter (fun x => x.log.isSome) := by
  have key : ∀ (es : List Ev) (s : S), s.queue = [] → (∀ e ∈ es, ∀ ov fits, e ≠ .call ov fits) →
      (s.run es).trace.filter (fun x => x.log.isSome) = s.trace.filter (fun x => x.log.isSome) := by
    intro es
    induction es with
    | nil => intro s _ _; rfl
    | cons e es ih =>
      intro s hq h
      have hs : (s.step e).queue = [] ∧ (s.step e).trace.filter (fun x => x.log.isSome) = s.trace.filter (fun x => x.log.isSome) := by
        cases e with
        | call ov fits => exact absurd rfl (h _ (.head _) ov fits)
        | take gen wok md => dsimp only [S.step]; rw [hq]; exact ⟨hq, rfl⟩
        | op o =>
          refine ⟨by dsimp only [S.step]; split <;> first | rfl | exact hq, ?_⟩
          cases o <;> simp [S.step, handed]
      exact (ih _ hs.1 fun e' h' => h e' (.tail _ h')).trans hs.2
  rw [key es _ (by simp [S.step]) h]
  simp [S.step, handed]

/-! ### Violations and examples -/

/-- **C127 (violated).** A log that waits while the application starts a new session is given the new one. -/
theorem C127_called_violated :
    (({} : S).run [.op (.sessionId 3 true), .call none true, .op (.startNew 5 true), .take 9 true true]).trace =
      [⟨3, none, true⟩, ⟨5, none, true⟩, ⟨5, some 1, true⟩] := by decide

/-- **C127 (violated).** A callback that returns an identifier again, here in the third process, resumes a session that had ended; nothing prevents it. -/
theorem C127_repeat_violated :
    (({} : S).run [.call none true, .take 3 true true, .op .restart, .call none true, .take 4 true true, .op .restart, .call none true, .take 3 true true]).trace.map (·.id) =
      [3, 4, 3] := by decide

/-- **C127 (violated).** Whoever asks for the session from inside the callback is told one that no log will ever have. -/
theorem C127_callback_violated :
    (({} : S).run [.op (.sessionIdInCallback 8), .op (.sessionId 3 true), .call none true, .take 4 true true]).trace =
      [⟨8, none, false⟩, ⟨3, none, true⟩, ⟨3, some 2, true⟩] := by decide

/-- Two processes with two sessions each, a store that fails once, a log about the first process in the second. -/
example :
    let es : List Ev := [.call none true, .call none true, .take 1 true true, .op (.startNew 2 false), .take 3 true true, .op .restart, .call none true,
      .take 4 true true, .call (some 1) true, .op (.startNew 5 true), .take 6 true true, .op (.sessionId 7 true)]
    (es.flatMap gens).Nodup ∧ (({} : S).run es).trace.map (fun x => (x.id, x.log, x.plain)) =
      [(1, some 0, true), (2, none, true), (2, some 0, true), (4, some 3, true), (5, none, true), (1, some 4, false), (5, none, true)] := by
  decide

/-- A log that has its turn after two others, one of which is without metadata. -/
example :
    let s := ({} : S).run [.call none true, .call none true]
    let mid : List Ev := [.take 1 true false, .call none false, .op (.startNew 2 true), .take 3 true true]
    mid.countP isTake = s.queue.length ∧ (∀ e ∈ mid, e ≠ .op .restart) ∧ ((s.step (.call (some 7) true)).run mid).queue = [(0, some 7)] := by decide

/-- A history for `C127_previous`. -/
example :
    let es : List Ev := [.call none true]
    let e : Ev := .take 1 true true
    let idle : List Ev := [.op (.sessionId 2 true), .call none true]
    let mid : List Ev := [.op (.startNew 3 true), .call (some 1) true]
    ((({} : S).run es).step e).trace = (({} : S).run es).trace ++ [⟨1, some 0, true⟩] ∧
    (((({} : S).run (es ++ e :: idle)).step (.op .restart)).run mid).queue = [(3, some 1)] := by decide

end Verif.Session.StampF
