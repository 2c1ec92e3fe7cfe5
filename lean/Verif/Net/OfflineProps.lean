import Verif.Net.Offline

/-
C122: a log is marked offline only when there is no network.
-/
namespace Verif.Net.Offline

open Verif.Reconn (Tr Quality Conn Turn)

/-- A log of an HTTP response with a status code: some string under the key is a number, and no binary value comes before. -/
def Answer (parse : List Char → Option Nat) (l : Log) : Prop :=
  l.ty = 8 ∧ l.msg = .str "HTTPResponse".toList ∧
  ∃ pre s post, l.fields = pre ++ ⟨"_status_code".toList, .str s⟩ :: post ∧ (parse s).isSome ∧
    ∀ f ∈ pre, f.key = "_status_code".toList → ∃ s', f.val = .str s' ∧ parse s' = none

/-- Types of logs that are marked: all but replays, resource reports and internal logs. -/
def Marked (ty : Nat) : Prop := ty ≠ 1 ∧ ty ≠ 3 ∧ ty ≠ 4

/-- Something that says what the network is like. -/
def Word (parse : List Char → Option Nat) : Item → Prop
  | .api (.quality _) => True
  | .track l => Answer parse l
  | _ => False

theorem getInt_some (parse : List Char → Option Nat) (k : Key) : ∀ fs : List Field, (getInt parse k fs).isSome ↔
    ∃ pre s post, fs = pre ++ ⟨k, .str s⟩ :: post ∧ (parse s).isSome ∧
      ∀ f ∈ pre, f.key = k → ∃ s', f.val = .str s' ∧ parse s' = none
  | [] => by simp [getInt]
  | f :: fs => by
    obtain ⟨key, val⟩ := f
    have ih := getInt_some parse k fs
    unfold getInt
    by_cases hk : key = k
    · subst hk
      simp only [ne_eq, not_true_eq_false, if_false]
      cases val with
      | bytes b =>
        simp only [Option.isSome_none, Bool.false_eq_true, false_iff]
        rintro ⟨pre, s, post, h1, _, h3⟩
        cases pre with
        | nil => simp at h1
        | cons g pre =>
          simp only [List.cons_append, List.cons.injEq] at h1
          obtain ⟨s', h, _⟩ := h3 g List.mem_cons_self (by rw [← h1.1])
          rw [← h1.1] at h; cases h
      | str s0 =>
        dsimp only
        cases hp : parse s0 with
        | some v =>
          simp only [Option.isSome_some, true_iff]
          exact ⟨[], s0, fs, rfl, by rw [hp]; rfl, nofun⟩
        | none =>
          rw [ih]
          constructor
          · rintro ⟨pre, s, post, h1, h2, h3⟩
            refine ⟨⟨key, .str s0⟩ :: pre, s, post, by rw [h1]; rfl, h2, ?_⟩
            intro f hf hk
            rcases List.mem_cons.1 hf with rfl | hf
            · exact ⟨s0, rfl, hp⟩
            · exact h3 f hf hk
          · rintro ⟨pre, s, post, h1, h2, h3⟩
            cases pre with
            | nil =>
              simp only [List.nil_append, List.cons.injEq, Field.mk.injEq, Val.str.injEq, true_and] at h1
              rw [← h1.1, hp] at h2; cases h2
            | cons g pre =>
              simp only [List.cons_append, List.cons.injEq] at h1
              exact ⟨pre, s, post, h1.2, h2, fun f hf => h3 f (List.mem_cons_of_mem _ hf)⟩
    · simp only [ne_eq, hk, not_false_eq_true, if_true]
      rw [ih]
      constructor
      · rintro ⟨pre, s, post, h1, h2, h3⟩
        refine ⟨⟨key, val⟩ :: pre, s, post, by rw [h1]; rfl, h2, ?_⟩
        intro f hf hk'
        rcases List.mem_cons.1 hf with rfl | hf
        · exact absurd hk' hk
        · exact h3 f hf hk'
      · rintro ⟨pre, s, post, h1, h2, h3⟩
        cases pre with
        | nil =>
          simp only [List.nil_append, List.cons.injEq, Field.mk.injEq] at h1
          exact absurd h1.1.1 hk
        | cons g pre =>
          simp only [List.cons_append, List.cons.injEq] at h1
          exact ⟨pre, s, post, h1.2, h2, fun f hf => h3 f (List.mem_cons_of_mem _ hf)⟩

theorem track_answer {parse : List Char → Option Nat} {l : Log} (h : Answer parse l) (c : Quality) : track parse c l = .online := by
  obtain ⟨h1, h2, h3⟩ := h
  unfold track
  rw [h2]
  simp only [h1, tySpan, and_self, if_true, (getInt_some parse _ l.fields).2 h3]

theorem track_other {parse : List Char → Option Nat} {l : Log} (h : ¬ Answer parse l) (c : Quality) : track parse c l = c := by
  unfold track
  cases hm : l.msg with
  | bytes b => rfl
  | str m =>
    dsimp only
    split
    · rename_i h1
      split
      · rename_i h2
        exact absurd ⟨h1.1, by rw [hm, h1.2], (getInt_some parse _ l.fields).1 h2⟩ h
      · rfl
    · rfl

theorem step_word {parse : List Char → Option Nat} {i : Item} (h : Word parse i) (s : S) :
    (s.step parse i).cell = .offline ↔ i = .api (.quality .offline) := by
  cases i with
  | api e =>
    cases e with
    | quality q => simp [S.step]
    | _ => exact h.elim
  | track l =>
    have h : Answer parse l := h
    simp [S.step, track_answer h]
  | mark l => exact h.elim

theorem step_silent {parse : List Char → Option Nat} {i : Item} (h : ¬ Word parse i) (s : S) : (s.step parse i).cell = s.cell := by
  cases i with
  | api e =>
    cases e with
    | quality q => exact absurd trivial h
    | _ => rfl
  | track l => exact track_other (fun ha => h ha) s.cell
  | mark l => rfl

/-- The last word about the network is that of the API task that there is none. -/
def LastOffline (parse : List Char → Option Nat) (es : List (Nat × Item)) : Prop :=
  ∃ a t b, es = a ++ (t, .api (.quality .offline)) :: b ∧ ∀ x ∈ b, ¬ Word parse x.2

theorem lastOffline_cons (parse : List Char → Option Nat) (x : Nat × Item) (es : List (Nat × Item)) :
    LastOffline parse (x :: es) ↔ LastOffline parse es ∨ (x.2 = .api (.quality .offline) ∧ ∀ y ∈ es, ¬ Word parse y.2) := by
  constructor
  · rintro ⟨a, t, b, h1, h2⟩
    cases a with
    | nil =>
      simp only [List.nil_append, List.cons.injEq] at h1
      right
      exact ⟨by rw [h1.1], by rw [h1.2]; exact h2⟩
    | cons y a =>
      simp only [List.cons_append, List.cons.injEq] at h1
      exact Or.inl ⟨a, t, b, h1.2, h2⟩
  · rintro (⟨a, t, b, h1, h2⟩ | ⟨h1, h2⟩)
    · exact ⟨x :: a, t, b, by rw [h1]; rfl, h2⟩
    · exact ⟨[], x.1, es, by rw [← h1]; rfl, h2⟩

theorem cell_run (parse : List Char → Option Nat) : ∀ (es : List (Nat × Item)) (s : S),
    (S.run parse s es).cell = .offline ↔ LastOffline parse es ∨ (s.cell = .offline ∧ ∀ x ∈ es, ¬ Word parse x.2)
  | [], s => by
    constructor
    · intro h; exact Or.inr ⟨h, nofun⟩
    · rintro (⟨a, t, b, h, _⟩ | h)
      · simp at h
      · exact h.1
  | x :: es, s => by
    have ih := cell_run parse es (s.step parse x.2)
    show (S.run parse (s.step parse x.2) es).cell = .offline ↔ _
    rw [ih, lastOffline_cons]
    by_cases hw : Word parse x.2
    · rw [step_word hw]
      constructor
      · rintro (h | h)
        · exact Or.inl (Or.inl h)
        · exact Or.inl (Or.inr h)
      · rintro (h | ⟨_, h⟩)
        · exact h
        · exact absurd hw (h x List.mem_cons_self)
    · rw [step_silent hw]
      constructor
      · rintro (h | ⟨h, h'⟩)
        · exact Or.inl (Or.inl h)
        · refine Or.inr ⟨h, fun y hy => ?_⟩
          rcases List.mem_cons.1 hy with rfl | hy
          · exact hw
          · exact h' y hy
      · rintro ((h | ⟨h, _⟩) | ⟨h, h'⟩)
        · exact Or.inl h
        · rw [h] at hw; exact absurd trivial hw
        · exact Or.inr ⟨h, fun y hy => h' y (List.mem_cons_of_mem _ hy)⟩

/-- **C122.** A log is marked exactly if it is of a type that is marked and the last word about the network is that of the API task that there
is none: no stream was reported since, and no response with a status code was logged since.  Nothing else is changed. -/
theorem C122_marked (parse : List Char → Option Nat) (es : List (Nat × Item)) (t : Nat) (l : Log) :
    ∃ added : List Field, (S.run parse {} (es ++ [(t, .mark l)])).out = (S.run parse {} es).out ++ [(l, l.fields ++ added)] ∧
      (Marked l.ty ∧ LastOffline parse es → added = [⟨"_network_quality".toList, .str "offline".toList⟩]) ∧
      (¬ (Marked l.ty ∧ LastOffline parse es) → added = []) := by
  have hc := cell_run parse es {}
  have hc : (S.run parse {} es).cell = .offline ↔ LastOffline parse es := by
    rw [hc]
    constructor
    · rintro (h | ⟨h, _⟩)
      · exact h
      · cases h
    · exact Or.inl
  have ho : (S.run parse {} (es ++ [(t, .mark l)])).out = (S.run parse {} es).out ++ [(l, mark (S.run parse {} es).cell l)] := by
    simp [S.run, List.foldl_append, S.step]
  rw [ho]
  by_cases h : Marked l.ty ∧ LastOffline parse es
  · refine ⟨_, ?_, fun _ => rfl, fun hn => absurd h hn⟩
    have hm : mark (S.run parse {} es).cell l = l.fields ++ [⟨"_network_quality".toList, .str "offline".toList⟩] := by
      unfold mark
      rw [if_neg (by obtain ⟨h1, h2, h3⟩ := h.1; simp [tyResource, tyReplay, tyInternal, h1, h2, h3]), if_neg (by simp [hc.2 h.2])]
    rw [hm]
  · refine ⟨[], ?_, fun hy => absurd hy h, fun _ => rfl⟩
    have hm : mark (S.run parse {} es).cell l = l.fields := by
      unfold mark
      split
      · rfl
      · rename_i hty
        rw [if_pos]
        intro hoff
        apply h
        refine ⟨?_, hc.1 hoff⟩
        exact ⟨fun e => hty (Or.inr (Or.inl e)), fun e => hty (Or.inl e), fun e => hty (Or.inr (Or.inr e))⟩
    rw [hm, List.append_nil]

theorem apiPart_append (a b : List (Nat × Item)) : apiPart (a ++ b) = apiPart a ++ apiPart b := List.filterMap_append

/-- **C122.** When a log is marked, the API task had been without a stream for more than 15 seconds when it said so, it has not reported one since,
and it has not begun another attempt since. -/
theorem C122_offline (parse : List Char → Option Nat) (c : Conn) (ts : List Turn) (hc : c.disc = none) (pre post : List (Nat × Item)) (t : Nat) (l : Log)
    (h : History c ts (pre ++ (t, .mark l) :: post)) (f : List Field)
    (ho : (S.run parse {} (pre ++ [(t, .mark l)])).out = (S.run parse {} pre).out ++ [(l, f)]) (hf : f ≠ l.fields) :
    ∃ a t' b, pre = a ++ (t', .api (.quality .offline)) :: b ∧ t' ≤ t ∧ (∀ x ∈ b, ¬ Word parse x.2) ∧
      c.now + 15000 < t' ∧ ∀ x, (x, Item.api .established) ∈ a ∨ (x, Item.api .closed) ∈ a → x + 15000 < t' := by
  obtain ⟨added, h1, h2, h3⟩ := C122_marked parse pre t l
  have hl : LastOffline parse pre := by
    apply Classical.byContradiction
    intro hn
    have := h3 fun hh => hn hh.2
    rw [this, List.append_nil, ho] at h1
    have h1 := List.append_cancel_left h1
    simp only [List.cons.injEq, Prod.mk.injEq, true_and, and_true] at h1
    exact hf h1
  obtain ⟨a, t', b, e, hb⟩ := hl
  have hap := h.api
  rw [e] at hap
  obtain ⟨rest, hr⟩ := hap
  have hsplit : Reconn.run c ts = apiPart a ++ (t', .quality .offline) :: (apiPart (b ++ (t, .mark l) :: post) ++ rest) := by
    rw [← hr, List.append_assoc, apiPart_append, List.append_assoc, List.cons_append]
    congr 1
  obtain ⟨g1, g2⟩ := Verif.Reconn.C74_offline c ts hc _ _ t' hsplit
  have htime : t' ≤ t := by
    have ht := h.time
    rw [e, List.append_assoc, List.map_append, List.pairwise_append] at ht
    have := ht.2.1
    rw [List.cons_append, List.map_cons, List.pairwise_cons] at this
    exact this.1 t (by simp)
  refine ⟨a, t', b, e, htime, hb, g1, ?_⟩
  intro x hx
  apply g2
  unfold Verif.Reconn.upTimes apiPart
  rcases hx with hx | hx
  · exact List.mem_filterMap.2 ⟨(x, .established), List.mem_filterMap.2 ⟨_, hx, rfl⟩, rfl⟩
  · exact List.mem_filterMap.2 ⟨(x, .closed), List.mem_filterMap.2 ⟨_, hx, rfl⟩, rfl⟩

/-- **C122 (partial).** After a response with a status code was logged no log is marked, that of the response included, until the API task begins
another attempt.  Missing: an attempt that begins right after the response takes it back, although there is a network
(`C122_answered_violated`), and even the log of the response itself can be marked (`C122_own_violated`). -/
theorem C122_answered_partial (parse : List Char → Option Nat) (a b : List (Nat × Item)) (t' t : Nat) (r l : Log) (hr : Answer parse r)
    (hb : ∀ x q, (x, Item.api (.quality q)) ∉ b) :
    let es := a ++ (t', .track r) :: b
    (S.run parse {} (es ++ [(t, .mark l)])).out = (S.run parse {} es).out ++ [(l, l.fields)] := by
  intro es
  obtain ⟨added, h1, _, h3⟩ := C122_marked parse es t l
  have hn : ¬ LastOffline parse es := by
    rintro ⟨a', t0, b', e, h⟩
    have e : a ++ (t', Item.track r) :: b = a' ++ (t0, .api (.quality .offline)) :: b' := e
    rcases List.append_eq_append_iff.1 e with ⟨as, h4, h5⟩ | ⟨as, h4, h5⟩
    · cases as with
      | nil => simp at h5
      | cons y as =>
        simp only [List.cons_append, List.cons.injEq] at h5
        exact hb t0 .offline (by rw [h5.2]; simp)
    · cases as with
      | nil => simp at h5
      | cons y as =>
        simp only [List.cons_append, List.cons.injEq] at h5
        exact h (t', .track r) (by rw [h5.2]; simp) hr
  rw [h1, h3 fun h => hn h.2, List.append_nil]

/-- **C122.** While a stream is up no log is marked. -/
theorem C122_up (parse : List Char → Option Nat) (a b : List (Nat × Item)) (t' t : Nat) (l : Log)
    (hb : ∀ x q, (x, Item.api (.quality q)) ∉ b) :
    let es := a ++ (t', .api (.quality .online)) :: b
    (S.run parse {} (es ++ [(t, .mark l)])).out = (S.run parse {} es).out ++ [(l, l.fields)] := by
  intro es
  obtain ⟨added, h1, _, h3⟩ := C122_marked parse es t l
  have hn : ¬ LastOffline parse es := by
    rintro ⟨a', t0, b', e, h⟩
    have e : a ++ (t', Item.api (.quality .online)) :: b = a' ++ (t0, .api (.quality .offline)) :: b' := e
    rcases List.append_eq_append_iff.1 e with ⟨as, h4, h5⟩ | ⟨as, h4, h5⟩
    · cases as with
      | nil => simp at h5
      | cons y as =>
        simp only [List.cons_append, List.cons.injEq] at h5
        exact hb t0 .offline (by rw [h5.2]; simp)
    · cases as with
      | nil => simp at h5
      | cons y as =>
        simp only [List.cons_append, List.cons.injEq] at h5
        exact h (t', .api (.quality .online)) (by rw [h5.2]; simp) trivial
  rw [h1, h3 fun h => hn h.2, List.append_nil]

namespace Ex
def parse (s : List Char) : Option Nat := if s = "200".toList then some 200 else none
/-- nobody answers, and the second attempt is 16 seconds after the first -/
def conn : Conn := ⟨0, Verif.Reconn.policy 20000 20000, none⟩
def turns : List Turn := [⟨none, 0, .refused, 16000⟩, ⟨none, 0, .refused, 16000⟩]
def response : Log := ⟨8, .str "HTTPResponse".toList, [⟨"_status_code".toList, .str "200".toList⟩]⟩
def line : Log := ⟨0, .str "hello".toList, []⟩
/-- a response just before that attempt, a log just after it -/
def after : List (Nat × Item) :=
  [(0, .api (.quality .unknown)), (0, .api .start), (15999, .track response), (15999, .mark response), (16000, .api (.quality .offline)),
    (16000, .api .start), (16001, .track line), (16001, .mark line)]
/-- the attempt begins between the two interceptors -/
def own : List (Nat × Item) :=
  [(0, .api (.quality .unknown)), (0, .api .start), (16000, .track response), (16000, .api (.quality .offline)), (16000, .mark response)]
end Ex

theorem answer_ex : Answer Ex.parse Ex.response := ⟨rfl, rfl, [], "200".toList, [], rfl, by decide, nofun⟩

theorem draws_ex : Verif.Reconn.Draws Ex.conn Ex.turns := by
  simp [Ex.turns, Ex.conn, Verif.Reconn.Draws, Verif.Reconn.Draw, Verif.Reconn.policy, Verif.Reconn.turn, Verif.Reconn.applyChange,
    Verif.Reconn.Backoff.bump]

theorem history_after : History Ex.conn Ex.turns Ex.after where
  api := ⟨[], by decide +kernel⟩
  log := ⟨[Ex.response, Ex.line], [], by decide⟩
  time := by decide

theorem history_own : History Ex.conn Ex.turns Ex.own where
  api := ⟨[(16000, .start)], by decide +kernel⟩
  log := ⟨[Ex.response], [], by decide⟩
  time := by decide

/-- **C122 (violated).** A millisecond after a response with status 200 was logged the API task begins an attempt, and the next log is marked
offline. -/
theorem C122_answered_violated :
    Answer Ex.parse Ex.response ∧ History Ex.conn Ex.turns Ex.after ∧ Verif.Reconn.Draws Ex.conn Ex.turns ∧
    (S.run Ex.parse {} Ex.after).out =
      [(Ex.response, Ex.response.fields), (Ex.line, [⟨"_network_quality".toList, .str "offline".toList⟩])] :=
  ⟨answer_ex, history_after, draws_ex, by decide +kernel⟩

/-- **C122 (violated).** The log of a response with status 200 is itself marked offline. -/
theorem C122_own_violated :
    Answer Ex.parse Ex.response ∧ History Ex.conn Ex.turns Ex.own ∧ Verif.Reconn.Draws Ex.conn Ex.turns ∧
    (S.run Ex.parse {} Ex.own).out = [(Ex.response, Ex.response.fields ++ [⟨"_network_quality".toList, .str "offline".toList⟩])] :=
  ⟨answer_ex, history_own, draws_ex, by decide +kernel⟩

/-- `C122_offline` speaks about these histories. -/
example : Ex.conn.disc = none ∧ LastOffline Ex.parse (Ex.after.take 7) ∧ Marked Ex.line.ty :=
  ⟨rfl, ⟨Ex.after.take 4, 16000, [(16000, .api .start), (16001, .track Ex.line)], rfl, by
    intro x hx
    simp only [List.mem_cons, List.not_mem_nil, or_false] at hx
    rcases hx with rfl | rfl
    · exact id
    · rintro ⟨h, _⟩; cases h⟩, by decide, by decide, by decide⟩

end Verif.Net.Offline
