import Verif.Session.Stamp
import Verif.Session.Props
import Verif.Workflow.SessionProps

/-
C125: the logs of a session are a block.
-/
namespace Verif.Session.Stamp

/-- Writes of the session state succeed. -/
def Kept : Ev → Prop
  | .take _ wok _ => wok = true
  | .op (.sessionId _ wok) => wok = true
  | .op (.startNew _ wok) => wok = true
  | .op (.flush wok) => wok = true
  | _ => True

/-- The identifiers handed out as the current one, in order. -/
def plain (t : List Item) : List Nat := (t.filter (·.plain)).map (·.id)

/-- The stored session is the current one. -/
def Near (a : Act) : Prop := ∀ l s, a.live = some l → a.disk = some s → s.id = l.id

/-- `b` is no older than all of `xs`. -/
def Top (a : Act) (xs : List Nat) : Prop :=
  (∀ x ∈ xs, x < a.uuid) ∧ (∀ l, a.live = some l → ∀ x ∈ xs, x ≤ l.id) ∧ (a.live = none → ∀ s, a.disk = some s → ∀ x ∈ xs, x ≤ s.id)

theorem touch_spec (a : Act) (l : Live) (now : Int) :
    ∃ l', (a.touch l now true).1.live = some l' ∧ (a.touch l now true).2 = l'.id ∧
      ((l'.id = l.id ∧ (a.touch l now true).1.uuid = a.uuid ∧
          ((a.touch l now true).1.disk = a.disk ∧ l.write ≠ none ∨ ∃ s, (a.touch l now true).1.disk = some s ∧ s.id = l'.id)) ∨
       (l'.id = a.uuid ∧ (a.touch l now true).1.uuid = a.uuid + 1 ∧ ∃ s, (a.touch l now true).1.disk = some s ∧ s.id = l'.id)) := by
  unfold Act.touch Act.store
  cases hw : l.write with
  | none =>
    simp only [if_true]
    split
    · exact ⟨_, rfl, rfl, .inr ⟨rfl, rfl, _, rfl, rfl⟩⟩
    · exact ⟨_, rfl, rfl, .inl ⟨rfl, rfl, .inr ⟨_, rfl, rfl⟩⟩⟩
  | some w =>
    simp only [if_true]
    split
    · exact ⟨_, rfl, rfl, .inr ⟨rfl, rfl, _, rfl, rfl⟩⟩
    · split
      · exact ⟨_, rfl, rfl, .inl ⟨rfl, rfl, .inr ⟨_, rfl, rfl⟩⟩⟩
      · exact ⟨_, rfl, rfl, .inl ⟨rfl, rfl, .inl ⟨rfl, nofun⟩⟩⟩

/-- What a call of `session_id` returns: the current session, or a new one. -/
theorem sessionId_spec {a : Act} {xs : List Nat} (hf : a.Fresh) (hn : Near a) (ht : Top a xs) (now : Int) :
    Near (a.sessionId now true).1 ∧ Top (a.sessionId now true).1 (xs ++ [(a.sessionId now true).2]) ∧ ∀ x ∈ xs, x ≤ (a.sessionId now true).2 := by
  obtain ⟨t1, t2, t3⟩ := ht
  obtain ⟨f1, f2⟩ := hf
  have key : ∀ (b : Act) (l : Live), a.sessionId now true = b.touch l now true → a.uuid ≤ b.uuid → l.id < b.uuid →
      (∀ x ∈ xs, x ≤ l.id) → (∀ s, b.disk = some s → s.id = l.id) →
      Near (a.sessionId now true).1 ∧ Top (a.sessionId now true).1 (xs ++ [(a.sessionId now true).2]) ∧ ∀ x ∈ xs, x ≤ (a.sessionId now true).2 := by
    intro b l he hu hl hx hd
    rw [he]
    obtain ⟨l', e1, e2, c⟩ := touch_spec b l now
    have hle : ∀ x ∈ xs, x ≤ l'.id := by
      intro x hxx
      rcases c with c | c
      · rw [c.1]; exact hx x hxx
      · rw [c.1]; exact Nat.le_trans (Nat.le_of_lt (t1 x hxx)) hu
    have hlt : l'.id < (b.touch l now true).1.uuid := by
      rcases c with c | c <;> omega
    have hall : ∀ x ∈ xs ++ [(b.touch l now true).2], x ≤ l'.id := by
      intro x hxx
      rcases List.mem_append.1 hxx with h | h
      · exact hle x h
      · rw [List.mem_singleton.1 h, e2]; exact Nat.le_refl _
    refine ⟨?_, ⟨fun x hxx => Nat.lt_of_le_of_lt (hall x hxx) hlt, ?_, ?_⟩, ?_⟩
    · intro l2 s hl2 hs
      rw [e1] at hl2; cases hl2
      rcases c with ⟨c1, _, ⟨c3, _⟩ | ⟨s', c3, c4⟩⟩ | ⟨_, _, s', c3, c4⟩
      · rw [c3] at hs; rw [hd s hs, c1]
      · rw [c3] at hs; cases hs; exact c4
      · rw [c3] at hs; cases hs; exact c4
    · intro l2 hl2
      rw [e1] at hl2; cases hl2
      exact hall
    · intro hnone
      rw [e1] at hnone; cases hnone
    · intro x hxx
      rw [e2]; exact hle x hxx
  unfold Act.sessionId Act.load at key ⊢
  cases hlive : a.live with
  | some l =>
    rw [hlive] at key
    exact key a l rfl (Nat.le_refl _) (f1 l hlive) (t2 l hlive) fun s hs => hn l s hlive hs
  | none =>
    cases hdisk : a.disk with
    | some s =>
      rw [hlive, hdisk] at key
      refine key a ⟨s.id, some s.id, s.activity, none⟩ rfl (Nat.le_refl _) (f2 s hdisk) (t3 hlive s hdisk) fun s' hs' => ?_
      rw [hdisk] at hs'; cases hs'; rfl
    | none =>
      rw [hlive, hdisk] at key
      refine key { a with uuid := a.uuid + 1 } ⟨a.uuid, none, now, none⟩ rfl (Nat.le_succ _) (Nat.lt_succ_self _)
        (fun x hx => Nat.le_of_lt (t1 x hx)) fun s hs => ?_
      dsimp only at hs
      rw [hdisk] at hs; cases hs

structure Inv (s : S) : Prop where
  fresh : s.act.Fresh
  near : Near s.act
  top : Top s.act (plain s.trace)
  sorted : (plain s.trace).Pairwise (· ≤ ·)
  queue : ∀ q ∈ s.queue, q.1 ≤ s.trace.length
  log : ∀ (p : Nat) (it : Item), s.trace[p]? = some it → ∀ n, it.log = some n → n ≤ p

theorem plain_append (a b : List Item) : plain (a ++ b) = plain a ++ plain b := by simp [plain]

theorem sorted_snoc {xs : List Nat} (h : xs.Pairwise (· ≤ ·)) {i : Nat} (hi : ∀ x ∈ xs, x ≤ i) : (xs ++ [i]).Pairwise (· ≤ ·) := by
  rw [List.pairwise_append]
  exact ⟨h, List.pairwise_singleton _ _, fun x hx y hy => by rw [List.mem_singleton.1 hy]; exact hi x hx⟩

theorem log_snoc {t : List Item} (h : ∀ (p : Nat) (it : Item), t[p]? = some it → ∀ n, it.log = some n → n ≤ p) {x : Item} (hx : ∀ n, x.log = some n → n ≤ t.length) :
    ∀ (p : Nat) (it : Item), (t ++ [x])[p]? = some it → ∀ n, it.log = some n → n ≤ p := by
  intro p it hp n hn
  by_cases hlt : p < t.length
  · rw [List.getElem?_append_left hlt] at hp; exact h p it hp n hn
  · rw [List.getElem?_append_right (by omega)] at hp
    have : p - t.length = 0 := by
      by_cases h0 : p - t.length = 0
      · exact h0
      · rw [List.getElem?_eq_none (by simp; omega)] at hp; cases hp
    rw [this] at hp
    cases hp
    have := hx n hn
    omega

theorem Inv.stamp {s : S} (h : Inv s) (now : Int) {called : Nat} {ov : Option Nat} {q : List (Nat × Option Nat)} (hq : s.queue = (called, ov) :: q) :
    Inv (s.stamp now true called q) := by
  obtain ⟨c1, c2, c3⟩ := sessionId_spec h.fresh h.near h.top now
  have hpl : plain (s.trace ++ [⟨(s.act.sessionId now true).2, some called, true⟩]) = plain s.trace ++ [(s.act.sessionId now true).2] := by
    rw [plain_append]; rfl
  refine ⟨(h.fresh.step (.sessionId now true)).1, c1, ?_, ?_, ?_, ?_⟩
  · show Top _ (plain (_ ++ _)); rw [hpl]; exact c2
  · show (plain (_ ++ _)).Pairwise _; rw [hpl]; exact sorted_snoc h.sorted c3
  · intro x hx
    have := h.queue x (by rw [hq]; exact .tail _ hx)
    show x.1 ≤ (s.trace ++ _).length
    simp only [List.length_append, List.length_singleton]; omega
  · exact log_snoc h.log fun n hn => by cases hn; exact h.queue _ (by rw [hq]; exact .head _)

theorem Top.same {a b : Act} {xs : List Nat} (h : Top a xs) (h1 : b.uuid = a.uuid) (h2 : b.live = a.live) (h3 : b.disk = a.disk) : Top b xs := by
  obtain ⟨a1, a2, a3⟩ := h
  refine ⟨by rw [h1]; exact a1, by rw [h2]; exact a2, by rw [h2, h3]; exact a3⟩

theorem Inv.step {s : S} (h : Inv s) {e : Ev} (he : Kept e) : Inv (s.step e) := by
  cases e with
  | call override fits =>
    dsimp only [S.step]
    split
    · refine ⟨h.fresh, h.near, h.top, h.sorted, ?_, h.log⟩
      intro q hq
      rcases List.mem_append.1 hq with hq | hq
      · exact h.queue q hq
      · rw [List.mem_singleton.1 hq]; exact Nat.le_refl _
    · exact h
  | take now wok metadata =>
    have hw : wok = true := he
    subst hw
    dsimp only [S.step]
    split
    · exact h
    · rename_i called override q hq
      have hqt : ∀ x ∈ q, x.1 ≤ s.trace.length := fun x hx => h.queue x (by rw [hq]; exact .tail _ hx)
      split
      · cases override with
        | none => exact h.stamp now hq
        | some o =>
          dsimp only
          split
          · have hpl : plain (s.trace ++ [⟨o, some called, false⟩]) = plain s.trace := by rw [plain_append]; simp [plain]
            refine ⟨h.fresh, h.near, ?_, ?_, ?_, ?_⟩
            · show Top _ (plain (_ ++ _)); rw [hpl]; exact h.top
            · show (plain (_ ++ _)).Pairwise _; rw [hpl]; exact h.sorted
            · intro x hx
              have := hqt x hx
              show x.1 ≤ (s.trace ++ _).length
              simp only [List.length_append, List.length_singleton]; omega
            · exact log_snoc h.log fun n hn => by cases hn; exact h.queue _ (by rw [hq]; exact .head _)
          · exact h.stamp now hq
      · exact ⟨h.fresh, h.near, h.top, h.sorted, hqt, h.log⟩
  | op o =>
    have hlogs : ∀ i, ∀ (p : Nat) (it : Item), (s.trace ++ [⟨i, none, true⟩])[p]? = some it → ∀ n, it.log = some n → n ≤ p :=
      fun i => log_snoc h.log nofun
    have hq1 : ∀ i, ∀ q ∈ s.queue, q.1 ≤ (s.trace ++ [(⟨i, none, true⟩ : Item)]).length := fun i q hq => by
      have := h.queue q hq
      simp only [List.length_append, List.length_singleton]; omega
    cases o with
    | sessionId now wok =>
      have hw : wok = true := he
      subst hw
      obtain ⟨c1, c2, c3⟩ := sessionId_spec h.fresh h.near h.top now
      have hpl : plain (s.trace ++ [⟨(s.act.sessionId now true).2, none, true⟩]) = plain s.trace ++ [(s.act.sessionId now true).2] := by
        rw [plain_append]; rfl
      refine ⟨(h.fresh.step (.sessionId now true)).1, c1, ?_, ?_, hq1 _, hlogs _⟩
      · show Top _ (plain (_ ++ _)); erw [hpl]; exact c2
      · show (plain (_ ++ _)).Pairwise _; erw [hpl]; exact sorted_snoc h.sorted c3
    | startNew now wok =>
      have hw : wok = true := he
      subst hw
      have hpl : plain (s.trace ++ [⟨s.act.uuid, none, true⟩]) = plain s.trace ++ [s.act.uuid] := by
        rw [plain_append]; rfl
      have hle : ∀ x ∈ plain s.trace, x ≤ s.act.uuid := fun x hx => Nat.le_of_lt (h.top.1 x hx)
      have hle' : ∀ x ∈ plain s.trace ++ [s.act.uuid], x ≤ s.act.uuid := by
        intro x hx
        rcases List.mem_append.1 hx with hx | hx
        · exact hle x hx
        · rw [List.mem_singleton.1 hx]; exact Nat.le_refl _
      refine ⟨(h.fresh.step (.startNew now true)).1, ?_, ?_, ?_, hq1 _, hlogs _⟩
      · intro l s' hl hs'
        simp only [S.step, Act.step, Act.startNew, Act.store, if_true, Option.some.injEq] at hl hs'
        subst hl hs'; rfl
      · show Top _ (plain (_ ++ _))
        erw [hpl]
        refine ⟨fun x hx => ?_, fun l hl x hx => ?_, fun hn => ?_⟩
        · show x < s.act.uuid + 1
          exact Nat.lt_succ_of_le (hle' x hx)
        · simp only [S.step, Act.step, Act.startNew, Act.store, if_true, Option.some.injEq] at hl
          subst hl; exact hle' x hx
        · simp [S.step, Act.step, Act.startNew] at hn
      · show (plain (_ ++ _)).Pairwise _; erw [hpl]; exact sorted_snoc h.sorted hle
    | flush wok =>
      have hw : wok = true := he
      subst hw
      have hf := (h.fresh.step (.flush true)).1
      refine ⟨hf, ?_, ?_, ?_, ?_, ?_⟩
      · intro l s' hl hs'
        simp only [S.step, Act.step, Act.flush, Act.store] at hl hs'
        cases hlv : s.act.live with
        | none => rw [hlv] at hl; dsimp only at hl; rw [hlv] at hl; cases hl
        | some l0 =>
          rw [hlv] at hl hs'
          simp only [if_true, Option.some.injEq] at hl hs'
          subst hl hs'; rfl
      · show Top _ (plain (s.trace ++ []))
        rw [List.append_nil]
        show Top (s.act.flush true) _
        unfold Act.flush Act.store
        cases hlv : s.act.live with
        | none => exact h.top
        | some l0 =>
          refine ⟨h.top.1, fun l hl => ?_, nofun⟩
          simp only [if_true, Option.some.injEq] at hl
          subst hl
          exact h.top.2.1 l0 hlv
      · show (plain (s.trace ++ [])).Pairwise _; rw [List.append_nil]; exact h.sorted
      · show ∀ q ∈ s.queue, q.1 ≤ (s.trace ++ []).length; rw [List.append_nil]; exact h.queue
      · show ∀ (p : Nat) (it : Item), (s.trace ++ [])[p]? = some it → _; rw [List.append_nil]; exact h.log
    | previous =>
      refine ⟨h.fresh, h.near, ?_, ?_, ?_, ?_⟩
      · show Top _ (plain (s.trace ++ [])); rw [List.append_nil]; exact h.top
      · show (plain (s.trace ++ [])).Pairwise _; rw [List.append_nil]; exact h.sorted
      · show ∀ q ∈ s.queue, q.1 ≤ (s.trace ++ []).length; rw [List.append_nil]; exact h.queue
      · show ∀ (p : Nat) (it : Item), (s.trace ++ [])[p]? = some it → _; rw [List.append_nil]; exact h.log
    | restart =>
      refine ⟨(h.fresh.step .restart).1, nofun, ?_, ?_, nofun, ?_⟩
      · show Top _ (plain (s.trace ++ []))
        rw [List.append_nil]
        refine ⟨h.top.1, nofun, fun _ s' hs' x hx => ?_⟩
        have hs' : s.act.disk = some s' := hs'
        cases hlv : s.act.live with
        | none => exact h.top.2.2 hlv s' hs' x hx
        | some l => rw [h.near l s' hlv hs']; exact h.top.2.1 l hlv x hx
      · show (plain (s.trace ++ [])).Pairwise _; rw [List.append_nil]; exact h.sorted
      · show ∀ (p : Nat) (it : Item), (s.trace ++ [])[p]? = some it → _; rw [List.append_nil]; exact h.log
    | lose =>
      refine ⟨(h.fresh.step .lose).1, nofun, ?_, ?_, ?_, ?_⟩
      · show Top _ (plain (s.trace ++ []))
        rw [List.append_nil]
        exact ⟨h.top.1, h.top.2.1, nofun⟩
      · show (plain (s.trace ++ [])).Pairwise _; rw [List.append_nil]; exact h.sorted
      · show ∀ q ∈ s.queue, q.1 ≤ (s.trace ++ []).length; rw [List.append_nil]; exact h.queue
      · show ∀ (p : Nat) (it : Item), (s.trace ++ [])[p]? = some it → _; rw [List.append_nil]; exact h.log

theorem Inv.run : ∀ (es : List Ev) {s : S}, Inv s → (∀ e ∈ es, Kept e) → Inv (s.run es)
  | [], _, h, _ => h
  | e :: es, _, h, he => Inv.run es (h.step (he e (.head _))) fun x hx => he x (.tail _ hx)

theorem Inv.new (threshold : Int) : Inv (S.new threshold) :=
  ⟨⟨nofun, nofun⟩, nofun, ⟨nofun, nofun, fun _ => nofun⟩, .nil, nofun, fun p it h => by simp [S.new] at h⟩

/-- Positions in order of what was handed out as the current session. -/
theorem sorted_at : ∀ (t : List Item), (plain t).Pairwise (· ≤ ·) → ∀ (i j : Nat) (x y : Item), i ≤ j → t[i]? = some x → t[j]? = some y → x.plain = true → y.plain = true → x.id ≤ y.id
  | [], _, i, j, x, y, _, hi, _, _, _ => by simp at hi
  | z :: t, h, i, j, x, y, hij, hi, hj, hx, hy => by
    have ht : (plain t).Pairwise (· ≤ ·) := by
      cases hz : z.plain with
      | true => rw [show plain (z :: t) = z.id :: plain t by simp [plain, hz]] at h; exact (List.pairwise_cons.1 h).2
      | false => rw [show plain (z :: t) = plain t by simp [plain, hz]] at h; exact h
    cases j with
    | zero =>
      have : i = 0 := by omega
      subst this
      rw [hi] at hj; cases hj; exact Nat.le_refl _
    | succ j =>
      simp only [List.getElem?_cons_succ] at hj
      cases i with
      | zero =>
        simp only [List.getElem?_cons_zero, Option.some.injEq] at hi
        subst hi
        rw [show plain (z :: t) = z.id :: plain t by simp [plain, hx]] at h
        refine (List.pairwise_cons.1 h).1 y.id ?_
        exact List.mem_map.2 ⟨y, List.mem_filter.2 ⟨List.mem_of_getElem? hj, hy⟩, rfl⟩
      | succ i =>
        simp only [List.getElem?_cons_succ] at hi
        exact sorted_at t ht i j x y (by omega) hi hj hx hy

/-- **C125 (partial).** If the session state can be stored: what is handed out as the current session, to callers and to logs, is one block for each session,
also across processes: between two uses of a session there is no use of another one.  Missing: logs with the override of the previous session
(`C125_override_violated`), and failing writes (`C125_unstored_violated`). -/
theorem C125_block_partial (threshold : Int) (es : List Ev) (h : ∀ e ∈ es, Kept e) (i j k : Nat) (x y z : Item) (hij : i ≤ j) (hjk : j ≤ k) :
    let t := ((S.new threshold).run es).trace
    t[i]? = some x → t[j]? = some y → t[k]? = some z → x.plain = true → y.plain = true → z.plain = true → x.id = z.id → y.id = x.id := by
  intro t hx hy hz px py pz he
  have hs : (plain t).Pairwise (· ≤ ·) := (Inv.run es (Inv.new threshold) h).sorted
  have h1 := sorted_at t hs i j x y hij hx hy px py
  have h2 := sorted_at t hs j k y z hjk hy hz py pz
  omega

/-- **C125 (partial).** A log is given the session that was current when it was logged, or one that began later: never one that had been left by then.  Missing: that it
is the one that was current (`C125_called_violated`). -/
theorem C125_not_earlier_partial (threshold : Int) (es : List Ev) (h : ∀ e ∈ es, Kept e) (r q p n : Nat) (x y z : Item) :
    let t := ((S.new threshold).run es).trace
    t[p]? = some z → z.log = some n → z.plain = true → t[q]? = some y → y.plain = true → q < n → t[r]? = some x → x.plain = true → r ≤ q →
    x.id = z.id → y.id = z.id := by
  intro t hz hl pz hy py hqn hx px hrq he
  have hi := Inv.run es (Inv.new threshold) h
  have hnp : n ≤ p := hi.log p z hz n hl
  have := C125_block_partial threshold es h r q p x y z hrq (by omega) hx hy hz px py pz he
  omega

/-- **C125.** A log without an override, or with one for another session than the previous one, uses the session strategy once; one with the right override is given the
session of the previous process and does not touch the current one; a log that was not logged is not given any. -/
theorem C125_take (s : S) (now : Int) (wok : Bool) (called : Nat) (ov : Option Nat) (q : List (Nat × Option Nat)) (hq : s.queue = (called, ov) :: q) :
    (ov = none ∨ ov ≠ s.act.previous → (s.step (.take now wok true)).act = (s.act.sessionId now wok).1 ∧
      (s.step (.take now wok true)).trace = s.trace ++ [⟨(s.act.sessionId now wok).2, some called, true⟩]) ∧
    (∀ o, ov = some o → s.act.previous = some o → (s.step (.take now wok true)).act = s.act ∧
      (s.step (.take now wok true)).trace = s.trace ++ [⟨o, some called, false⟩]) ∧
    (s.step (.take now wok true)).queue = q ∧ s.step (.take now wok false) = { s with queue := q } := by
  refine ⟨fun h => ?_, fun o ho hp => ?_, ?_, ?_⟩
  · dsimp only [S.step]
    rw [hq]
    dsimp only
    rw [if_pos rfl]
    cases ov with
    | none => exact ⟨rfl, rfl⟩
    | some o =>
      have : ¬ s.act.previous = some o := fun e => by
        rcases h with h | h
        · cases h
        · exact h e.symm
      dsimp only
      rw [if_neg this]
      exact ⟨rfl, rfl⟩
  · subst ho
    dsimp only [S.step]
    rw [hq]
    simp only [if_true, hp]
    exact ⟨trivial, trivial⟩
  · dsimp only [S.step]
    rw [hq]
    dsimp only
    rw [if_pos rfl]
    cases ov with
    | none => rfl
    | some o => dsimp only; split <;> rfl
  · dsimp only [S.step]
    rw [hq]
    simp

/-- **C125 (violated).** The application logs in session 0 and then starts session 1; the log is processed afterwards and belongs to session 1. -/
theorem C125_called_violated :
    ((S.new 30).run [.op (.sessionId 0 true), .call none true, .op (.startNew 1 true), .take 2 true true]).trace =
      [⟨0, none, true⟩, ⟨1, none, true⟩, ⟨1, some 1, true⟩] := by decide

/-- **C125 (violated).** A log about the previous process in the middle of a session. -/
theorem C125_override_violated :
    ((S.new 30).run [.op (.sessionId 0 true), .op .restart, .call none true, .take 100 true true, .call (some 0) true, .take 101 true true,
      .call none true, .take 102 true true]).trace.map (·.id) = [0, 1, 0, 1] := by decide

def isTake : Ev → Bool
  | .take _ _ _ => true
  | _ => false

theorem queue_run : ∀ (mid : List Ev) (s : S) (A B : List (Nat × Option Nat)), (∀ e ∈ mid, e ≠ .op .restart) → s.queue = A ++ B →
    mid.countP isTake ≤ A.length → ∃ C, (s.run mid).queue = A.drop (mid.countP isTake) ++ B ++ C := by
  intro mid
  induction mid with
  | nil => intro s A B _ hq _; exact ⟨[], by simpa [S.run] using hq⟩
  | cons e mid ih =>
    intro s A B hr hq hc
    have hr' : ∀ e ∈ mid, e ≠ .op .restart := fun e' h' => hr e' (.tail _ h')
    cases e with
    | call ov fits =>
      rw [List.countP_cons_of_neg (by simp [isTake])] at hc ⊢
      cases fits with
      | false => exact ih s A B hr' hq hc
      | true =>
        obtain ⟨C, h⟩ := ih (s.step (.call ov true)) A (B ++ [(s.trace.length, ov)]) hr' (by simp [S.step, hq]) hc
        exact ⟨[(s.trace.length, ov)] ++ C, by rw [show s.run (.call ov true :: mid) = (s.step (.call ov true)).run mid from rfl, h]; simp⟩
    | take now wok md =>
      rw [List.countP_cons_of_pos (by rfl)] at hc ⊢
      cases A with
      | nil => simp at hc
      | cons a A =>
        obtain ⟨called, ov⟩ := a
        have hq' : (s.step (.take now wok md)).queue = A ++ B := by
          have := C125_take s now wok called ov (A ++ B) hq
          cases md
          · rw [this.2.2.2]
          · exact this.2.2.1
        obtain ⟨C, h⟩ := ih _ A B hr' hq' (by simp at hc; omega)
        exact ⟨C, by rw [show s.run (.take now wok md :: mid) = (s.step (.take now wok md)).run mid from rfl, h]; simp⟩
    | op o =>
      rw [List.countP_cons_of_neg (by simp [isTake])] at hc ⊢
      have ho : o ≠ .restart := fun h => hr (.op o) (.head _) (by rw [h])
      exact ih (s.step (.op o)) A B hr' (by dsimp only [S.step]; rw [if_neg ho]; exact hq) hc

/-- **C125.** Within a process every log that fits into the queue has its turn, with the override it was logged with: after as many others as
were waiting when it was logged. -/
theorem C125_turn (s : S) (ov : Option Nat) (mid : List Ev) (hr : ∀ e ∈ mid, e ≠ .op .restart) (hc : mid.countP isTake = s.queue.length) :
    ∃ q, ((s.step (.call ov true)).run mid).queue = (s.trace.length, ov) :: q := by
  obtain ⟨C, h⟩ := queue_run mid (s.step (.call ov true)) s.queue [(s.trace.length, ov)] hr rfl (Nat.le_of_eq hc)
  exact ⟨C, by rw [h, hc]; simp⟩

/-- **C125.** The logs waiting when the process ends are not given a session by a later process: until something is logged again, no log is. -/
theorem C125_restart (s : S) (es : List Ev) (h : ∀ e ∈ es, ∀ ov fits, e ≠ .call ov fits) :
    ((s.step (.op .restart)).run es).trace.filter (fun x => x.log.isSome) = s.trace.filter (fun x => x.log.isSome) := by
  have key : ∀ (es : List Ev) (s : S), s.queue = [] → (∀ e ∈ es, ∀ ov fits, e ≠ .call ov fits) →
      (s.run es).trace.filter (fun x => x.log.isSome) = s.trace.filter (fun x => x.log.isSome) := by
    intro es
    induction es with
    | nil => intro s _ _; rfl
    | cons e es ih =>
      intro s hq h
      have hs : (s.step e).queue = [] ∧ (s.step e).trace.filter (fun x => x.log.isSome) = s.trace.filter (fun x => x.log.isSome) := by
        cases e with
        | call ov fits => exact absurd rfl (h _ (.head _) ov fits)
        | take now wok md => dsimp only [S.step]; rw [hq]; exact ⟨hq, rfl⟩
        | op o =>
          dsimp only [S.step]
          refine ⟨by split <;> first | rfl | exact hq, ?_⟩
          rw [List.filter_append]
          split
          · simp
          · cases (s.act.step o).2 <;> simp
      have := ih (s.step e) hs.1 (fun e' he' => h e' (.tail _ he'))
      rw [hs.2] at this
      exact this
  have := key es (s.step (.op .restart)) rfl h
  rw [this]
  simp [S.step, Act.step]

/-- One log waits at the restart and is lost; the one logged afterwards is given a session. -/
example :
    ((S.new 30).run [.call none true, .op .restart, .take 1 true true, .op (.sessionId 2 true), .take 3 true true]).trace = [⟨0, none, true⟩] ∧
    ((S.new 30).run [.call none true, .op .restart, .call none true, .take 1 true true]).trace = [⟨0, some 0, true⟩] := by decide

/-- What this does to the workflows (C36): the second step of a workflow is not found any more after a log of another session in between. -/
theorem C125_progress_violated :
    let log (session : String) (hits : List Nat) : Wf.Op := .log { session := session, time := 0, hits := hits } [] {}
    let start : Wf.Op := .start 9 true [] ⟨[Wf.Ex.flushing], ["t"], ["c"]⟩
    (({} : Wf.Engine).run [start, log "1" [1], log "1" [2]]).emitted.length = 2 ∧
    (({} : Wf.Engine).run [start, log "1" [1], log "0" [], log "1" [2]]).emitted.length = 1 := by decide +kernel

/-- **C125 (violated).** If the new session cannot be stored, the old one comes back with the next process. -/
theorem C125_unstored_violated :
    ((S.new 30).run [.op (.sessionId 0 true), .op (.startNew 1 false), .op .restart, .op (.sessionId 2 true)]).trace.map (·.id) = [0, 1, 0] := by decide

/-- A log that has its turn after two others, one of which is without metadata. -/
example :
    let s := (S.new 30).run [.call none true, .call none true]
    let mid : List Ev := [.take 1 true false, .call none false, .op (.startNew 2 true), .take 3 true true]
    mid.countP isTake = s.queue.length ∧ (∀ e ∈ mid, e ≠ .op .restart) ∧ ((s.step (.call (some 7) true)).run mid).queue = [(0, some 7)] := by decide

/-- Two processes, sessions ended by time and by the application, logs waiting meanwhile. -/
example :
    let es : List Ev := [.call none true, .call none true, .take 0 true true, .op (.startNew 5 true), .take 6 true true, .op .restart, .call none true,
      .take 7 true true, .op (.sessionId 50 true), .call (some 7) true, .take 51 true true]
    (∀ e ∈ es, Kept e) ∧ ((S.new 30).run es).trace.map (fun x => (x.id, x.log)) =
      [(0, some 0), (1, none), (1, some 0), (1, some 3), (2, none), (2, some 5)] := by
  refine ⟨?_, by decide⟩
  intro e he
  simp only [List.mem_cons, List.not_mem_nil, or_false] at he
  rcases he with rfl | rfl | rfl | rfl | rfl | rfl | rfl | rfl | rfl | rfl | rfl <;> simp [Kept]

end Verif.Session.Stamp
