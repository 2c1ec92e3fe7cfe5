import Verif.Tasks.Reentry

/-!
C75: calls into the logger return, also those made by platform code that the logger calls back.

The statement is proved for platform code that keeps to the rules `allowed` (`C75_returns_partial`).  Each rule is needed: see the
violations at the end.
-/
namespace Verif.Reentry

/-! ### The rules -/

/-- Where a call is made: the locks held by the thread, is the guard borrowed, is the callback of the fixed strategy running, is it
the log thread. -/
structure Ctx where
  held : List Lock
  guard : Bool
  flag : Bool
  onLog : Bool
  deriving DecidableEq, Repr

/-- The order in which locks may be taken. -/
def level : Lock → Nat
  | .error => 0
  | .session => 1
  | .device => 2

/-- A lock may be taken if all locks held are of a lower level. -/
def Ctx.may (x : Ctx) (m : Lock) : Bool := x.held.all fun h => decide (level h < level m)

/-- A call that waits may be made neither with a lock held nor on the log thread. -/
def Ctx.mayWait (x : Ctx) : Bool := x.held.isEmpty && !x.onLog

def Ctx.add (x : Ctx) (m : Lock) : Ctx := { x with held := m :: x.held }

mutual
/-- The rules for platform code. -/
def allowed (fixed : Bool) (x : Ctx) : Call → Bool
  | .node (.log bl full) a b _ =>
    x.guard || full || ((!bl || x.mayWait) && allowedAll fixed ⟨[], true, false, true⟩ a && allowedAll fixed ⟨[], false, false, true⟩ b)
  | .node (.field _) _ _ _ => true
  | .node (.flush bl full) a _ _ =>
    full || ((!bl || x.mayWait) && allowedAll fixed ⟨[.session], false, false, true⟩ a)
  | .node .sessionId a b c =>
    (fixed && x.flag) || (x.may .session && allowedAll fixed (x.add .session) a &&
      allowedAll fixed { x.add .session with flag := fixed || x.flag } b && allowedAll fixed (x.add .session) c)
  | .node .startNew a b c =>
    x.guard || (fixed && x.flag) || (x.may .session && allowedAll fixed (x.add .session) a &&
      allowedAll fixed { x.add .session with flag := fixed || x.flag } b && allowedAll fixed (x.add .session) c)
  | .node .prevId a _ _ => x.may .session && allowedAll fixed (x.add .session) a
  | .node .deviceId a _ _ => x.may .device && allowedAll fixed (x.add .device) a
  | .node .report a _ _ => x.may .error && allowedAll fixed (x.add .error) a
def allowedAll (fixed : Bool) (x : Ctx) : List Call → Bool
  | [] => true
  | c :: l => allowed fixed x c && allowedAll fixed x l
end

/-! ### What a thread still has to do fits to what it holds -/

def Fits (fixed : Bool) : Ctx → List Op → Prop
  | x, [] => x.held = [] ∧ x.guard = false ∧ x.flag = false
  | x, .acq m :: r => x.may m = true ∧ Fits fixed (x.add m) r
  | x, .rel m :: r => ∃ h, x.held = m :: h ∧ Fits fixed { x with held := h } r
  | x, .borrow :: r => x.guard = false ∧ Fits fixed { x with guard := true } r
  | x, .release :: r => x.guard = true ∧ Fits fixed { x with guard := false } r
  | x, .flag b :: r => Fits fixed { x with flag := b } r
  | x, .call c :: r => allowed fixed x c = true ∧ Fits fixed x r
  | x, .wait _ :: r => x.held = [] ∧ x.onLog = false ∧ Fits fixed x r
  | x, .send _ :: r => x.onLog = true ∧ Fits fixed x r

def Thread.ctx (t : Thread) : Ctx := ⟨t.held, t.guard, t.flag, t.onLog⟩

theorem fits_calls {fixed : Bool} {x : Ctx} {r : List Op} : ∀ {l : List Call}, allowedAll fixed x l = true → Fits fixed x r →
    Fits fixed x (calls l ++ r)
  | [], _, h => h
  | c :: l, ha, h => by
    simp only [allowedAll, Bool.and_eq_true] at ha
    exact ⟨ha.1, fits_calls ha.2 h⟩

theorem fits_sends {fixed : Bool} {x : Ctx} {r : List Op} (k : Option Nat) (hl : x.onLog = true) (h : Fits fixed x r) :
    Fits fixed x (sends k ++ r) := by
  cases k with
  | none => exact h
  | some k => exact ⟨hl, h⟩

/-- Only the log thread completes blocking calls. -/
theorem fits_silent {fixed : Bool} (k : Nat) : ∀ {os : List Op} {x : Ctx}, Fits fixed x os → x.onLog = false → ∀ o ∈ os, o ≠ .send k
  | .acq m :: r, x, h, hl, o, ho => by
    rcases List.mem_cons.mp ho with rfl | ho
    · simp
    · exact fits_silent k h.2 hl o ho
  | .rel m :: r, x, h, hl, o, ho => by
    rcases List.mem_cons.mp ho with rfl | ho
    · simp
    · obtain ⟨hh, _, h2⟩ := h
      exact fits_silent k h2 hl o ho
  | .borrow :: r, x, h, hl, o, ho => by
    rcases List.mem_cons.mp ho with rfl | ho
    · simp
    · exact fits_silent k h.2 hl o ho
  | .release :: r, x, h, hl, o, ho => by
    rcases List.mem_cons.mp ho with rfl | ho
    · simp
    · exact fits_silent k h.2 hl o ho
  | .flag b :: r, x, h, hl, o, ho => by
    rcases List.mem_cons.mp ho with rfl | ho
    · simp
    · exact fits_silent (x := { x with flag := b }) k h hl o ho
  | .call c :: r, x, h, hl, o, ho => by
    rcases List.mem_cons.mp ho with rfl | ho
    · simp
    · exact fits_silent k h.2 hl o ho
  | .wait j :: r, x, h, hl, o, ho => by
    rcases List.mem_cons.mp ho with rfl | ho
    · simp
    · exact fits_silent k h.2.2 hl o ho
  | .send j :: r, x, h, hl, o, ho => by rw [h.1] at hl; cases hl

theorem fits_awaits {fixed : Bool} {x : Ctx} {r : List Op} (bl : Bool) (k : Nat) (hb : (!bl || x.mayWait) = true) (h : Fits fixed x r) :
    Fits fixed x (awaits bl k ++ r) := by
  cases bl with
  | false => exact h
  | true =>
    simp only [Bool.not_true, Bool.false_or, Ctx.mayWait, Bool.and_eq_true, List.isEmpty_iff, Bool.not_eq_true'] at hb
    exact ⟨hb.1, hb.2, h⟩

theorem fits_locked {fixed : Bool} {x : Ctx} {a b c : List Call} {r : List Op} (hf : fixed = true → x.flag = false)
    (h : (x.may .session && allowedAll fixed (x.add .session) a &&
      allowedAll fixed { x.add .session with flag := fixed || x.flag } b && allowedAll fixed (x.add .session) c) = true)
    (hr : Fits fixed x r) : Fits fixed x (locked fixed a b c ++ r) := by
  simp only [Bool.and_eq_true] at h
  obtain ⟨⟨⟨h1, h2⟩, h3⟩, h4⟩ := h
  unfold locked
  simp only [List.cons_append, List.append_assoc]
  refine ⟨h1, fits_calls h2 ?_⟩
  cases fixed with
  | false =>
    simp only [Bool.false_eq_true, if_false]
    refine fits_calls (by simpa [Ctx.add] using h3) (fits_calls h4 ?_)
    exact ⟨x.held, rfl, hr⟩
  | true =>
    have hx : x.flag = false := hf rfl
    simp only [if_true, List.cons_append, List.append_assoc]
    show Fits true { x.add .session with flag := true } _
    refine fits_calls (by simpa [Ctx.add] using h3) ?_
    show Fits true { x.add .session with flag := false } _
    have : ({ x.add .session with flag := false } : Ctx) = x.add .session := by
      simp only [Ctx.add, ← hx]
    rw [this]
    refine fits_calls h4 ?_
    exact ⟨x.held, rfl, hr⟩

/-- The rules for messages in the queue. -/
def Msg.ok (fixed : Bool) : Msg → Bool
  | .log p a _ => allowedAll fixed ⟨[], true, false, true⟩ p && allowedAll fixed ⟨[], false, false, true⟩ a
  | .field => true
  | .flush s _ => allowedAll fixed ⟨[.session], false, false, true⟩ s

theorem fits_msg {fixed : Bool} (m : Msg) (h : m.ok fixed = true) : Fits fixed ⟨[], false, false, true⟩ m.ops := by
  cases m with
  | log p a k =>
    simp only [Msg.ok, Bool.and_eq_true] at h
    refine ⟨rfl, fits_calls h.1 ⟨rfl, ?_⟩⟩
    refine fits_calls h.2 ?_
    have := fits_sends (fixed := fixed) (x := ⟨[], false, false, true⟩) (r := []) k rfl ⟨rfl, rfl, rfl⟩
    simpa using this
  | field => exact ⟨rfl, rfl, rfl⟩
  | flush s k =>
    refine ⟨rfl, fits_calls h ⟨[], rfl, ?_⟩⟩
    have := fits_sends (fixed := fixed) (x := ⟨[], false, false, true⟩) (r := []) k rfl ⟨rfl, rfl, rfl⟩
    rw [List.append_nil] at this
    exact this

/-! ### Invariant -/

def Op.waits (k : Nat) : Op → Bool
  | .wait j => j == k
  | _ => false
def Op.sendsTo (k : Nat) : Op → Bool
  | .send j => j == k
  | _ => false
def Msg.completes (k : Nat) : Msg → Bool
  | .log _ _ j => j == some k
  | .field => false
  | .flush _ j => j == some k

structure Inv (fixed : Bool) (s : St) : Prop where
  fits : ∀ t ∈ s.threads, Fits fixed t.ctx t.ops
  queue : ∀ m ∈ s.sh.queue, m.ok fixed = true
  /-- no lock is held twice -/
  locks : ∀ m l t r, s.threads = l ++ t :: r → m ∈ t.held → (∀ u ∈ l ++ r, m ∉ u.held)
  /-- whoever waits will be told -/
  waits : ∀ t ∈ s.threads, ∀ k, t.ops.any (Op.waits k) = true →
    k ∈ s.sh.done ∨ s.sh.queue.any (Msg.completes k) = true ∨ ∃ u ∈ s.threads, u.ops.any (Op.sendsTo k) = true
  fine : s.sh.crashed = false

theorem waits_calls (k : Nat) (l : List Call) : (calls l).any (Op.waits k) = false := by
  simp [calls, List.any_map, Op.waits, Function.comp_def]
theorem sendsTo_calls (k : Nat) (l : List Call) : (calls l).any (Op.sendsTo k) = false := by
  simp [calls, List.any_map, Op.sendsTo, Function.comp_def]
theorem waits_sends (k : Nat) (j : Option Nat) : (sends j).any (Op.waits k) = false := by
  cases j <;> rfl
theorem waits_locked (k : Nat) (f : Bool) (a b c : List Call) : (locked f a b c).any (Op.waits k) = false := by
  unfold locked
  cases f <;> simp [List.any_append, waits_calls, Op.waits]
theorem waits_msg (k : Nat) (m : Msg) : m.ops.any (Op.waits k) = false := by
  cases m <;> simp [Msg.ops, List.any_append, waits_calls, waits_sends, Op.waits]

theorem sends_any (k : Nat) : (sends (some k)).any (Op.sendsTo k) = true := by simp [sends, Op.sendsTo]

theorem msg_sends (k : Nat) (m : Msg) (h : m.completes k = true) : m.ops.any (Op.sendsTo k) = true := by
  cases m with
  | log p a j =>
    simp only [Msg.completes, beq_iff_eq] at h
    subst h
    simp [Msg.ops, List.any_append, sends_any]
  | field => simp [Msg.completes] at h
  | flush s j =>
    simp only [Msg.completes, beq_iff_eq] at h
    subst h
    simp [Msg.ops, List.any_append, sends_any]

/-- What one step of a thread does. -/
structure Local (fixed : Bool) (free : Lock → Bool) (t : Thread) (sh : Shared) (t' : Thread) (sh' : Shared) : Prop where
  fits : Fits fixed t'.ctx t'.ops
  queue : ∀ m ∈ sh'.queue, m.ok fixed = true
  fine : sh'.crashed = false
  held : ∀ m ∈ t'.held, m ∈ t.held ∨ free m = true
  waits : ∀ k, t'.ops.any (Op.waits k) = true → t.ops.any (Op.waits k) = true ∨ sh'.queue.any (Msg.completes k) = true
  done : ∀ k ∈ sh.done, k ∈ sh'.done
  pend : ∀ k, sh.queue.any (Msg.completes k) = true → sh'.queue.any (Msg.completes k) = true ∨ t'.ops.any (Op.sendsTo k) = true
  tell : ∀ k, t.ops.any (Op.sendsTo k) = true → t'.ops.any (Op.sendsTo k) = true ∨ k ∈ sh'.done
  same : t'.onLog = t.onLog

theorem awaits_waits (bl : Bool) (k j : Nat) : (awaits bl k).any (Op.waits j) = true → bl = true ∧ k = j := by
  cases bl with
  | false => intro h; simp [awaits] at h
  | true => intro h; simpa [awaits, Op.waits] using h

theorem awaits_sends (bl : Bool) (k j : Nat) : (awaits bl k).any (Op.sendsTo j) = false := by
  cases bl <;> rfl

theorem locked_sends (k : Nat) (f : Bool) (a b c : List Call) : (locked f a b c).any (Op.sendsTo k) = false := by
  unfold locked
  cases f <;> simp [List.any_append, sendsTo_calls, Op.sendsTo]

theorem act_local {fixed : Bool} {free : Lock → Bool} {t t' : Thread} {sh sh' : Shared} (h : act fixed free t sh = some (t', sh'))
    (hf : Fits fixed t.ctx t.ops) (hq : ∀ m ∈ sh.queue, m.ok fixed = true) (hc : sh.crashed = false) :
    Local fixed free t sh t' sh' := by
  unfold act at h
  match ho : t.ops with
  | [] =>
    rw [ho] at h hf
    simp only at h
    split at h
    · rename_i hl
      cases hqq : sh.queue with
      | nil => rw [hqq] at h; cases h
      | cons m q =>
        rw [hqq] at h hq
        simp only [Option.some.injEq, Prod.mk.injEq] at h
        obtain ⟨rfl, rfl⟩ := h
        obtain ⟨h1, h2, h3⟩ := hf
        have hx : t.ctx = ⟨[], false, false, true⟩ := by
          simp only [Thread.ctx] at h1 h2 h3 ⊢
          rw [h1, h2, h3, hl]
        refine ⟨?_, fun m' hm' => hq m' (List.mem_cons_of_mem _ hm'), hc, fun m hm => .inl hm, ?_, fun k hk => hk, ?_, ?_, rfl⟩
        · show Fits fixed t.ctx m.ops
          rw [hx]
          exact fits_msg m (hq m List.mem_cons_self)
        · intro k hk; rw [waits_msg] at hk; cases hk
        · intro k hk
          rw [hqq, List.any_cons, Bool.or_eq_true] at hk
          rcases hk with hk | hk
          · exact .inr (msg_sends k m hk)
          · exact .inl hk
        · intro k hk; rw [ho] at hk; cases hk
    · cases h
  | .acq m :: r =>
    rw [ho] at h hf
    simp only at h
    split at h
    · rename_i hfree
      simp only [Option.some.injEq, Prod.mk.injEq] at h
      obtain ⟨rfl, rfl⟩ := h
      refine ⟨hf.2, hq, hc, ?_, ?_, fun k hk => hk, fun k hk => .inl hk, ?_, rfl⟩
      · intro m' hm'
        rcases List.mem_cons.mp hm' with rfl | hm'
        · exact .inr hfree
        · exact .inl hm'
      · intro k hk; rw [ho]; exact .inl (by simp only [List.any_cons, hk, Bool.or_true])
      · intro k hk; rw [ho] at hk; exact .inl (by simpa [Op.sendsTo] using hk)
    · cases h
  | .rel m :: r =>
    rw [ho] at h hf
    simp only [Option.some.injEq, Prod.mk.injEq] at h
    obtain ⟨rfl, rfl⟩ := h
    obtain ⟨hh, h1, h2⟩ := hf
    refine ⟨?_, hq, hc, fun m' hm' => .inl (List.mem_of_mem_erase hm'), ?_, fun k hk => hk, fun k hk => .inl hk, ?_, rfl⟩
    · have : t.held.erase m = hh := by
        have h1' : t.held = m :: hh := h1
        rw [h1']; simp
      show Fits fixed ⟨t.held.erase m, t.guard, t.flag, t.onLog⟩ r
      rw [this]
      exact h2
    · intro k hk; rw [ho]; exact .inl (by simp only [List.any_cons, hk, Bool.or_true])
    · intro k hk; rw [ho] at hk; exact .inl (by simpa [Op.sendsTo] using hk)
  | .borrow :: r =>
    rw [ho] at h hf
    have hg : t.guard = false := hf.1
    simp only [hg, Bool.false_eq_true, if_false, Option.some.injEq, Prod.mk.injEq] at h
    obtain ⟨rfl, rfl⟩ := h
    refine ⟨hf.2, hq, hc, fun m hm => .inl hm, ?_, fun k hk => hk, fun k hk => .inl hk, ?_, rfl⟩
    · intro k hk; rw [ho]; exact .inl (by simp only [List.any_cons, hk, Bool.or_true])
    · intro k hk; rw [ho] at hk; exact .inl (by simpa [Op.sendsTo] using hk)
  | .release :: r =>
    rw [ho] at h hf
    simp only [Option.some.injEq, Prod.mk.injEq] at h
    obtain ⟨rfl, rfl⟩ := h
    refine ⟨hf.2, hq, hc, fun m hm => .inl hm, ?_, fun k hk => hk, fun k hk => .inl hk, ?_, rfl⟩
    · intro k hk; rw [ho]; exact .inl (by simp only [List.any_cons, hk, Bool.or_true])
    · intro k hk; rw [ho] at hk; exact .inl (by simpa [Op.sendsTo] using hk)
  | .flag b :: r =>
    rw [ho] at h hf
    simp only [Option.some.injEq, Prod.mk.injEq] at h
    obtain ⟨rfl, rfl⟩ := h
    refine ⟨hf, hq, hc, fun m hm => .inl hm, ?_, fun k hk => hk, fun k hk => .inl hk, ?_, rfl⟩
    · intro k hk; rw [ho]; exact .inl (by simp only [List.any_cons, hk, Bool.or_true])
    · intro k hk; rw [ho] at hk; exact .inl (by simpa [Op.sendsTo] using hk)
  | .wait j :: r =>
    rw [ho] at h hf
    have hl : t.onLog = false := hf.2.1
    simp only at h
    rw [if_neg (by rw [hl]; simp)] at h
    split at h
    · simp only [Option.some.injEq, Prod.mk.injEq] at h
      obtain ⟨rfl, rfl⟩ := h
      refine ⟨hf.2.2, hq, hc, fun m hm => .inl hm, ?_, fun k hk => hk, fun k hk => .inl hk, ?_, rfl⟩
      · intro k hk; rw [ho]; exact .inl (by simp only [List.any_cons, hk, Bool.or_true])
      · intro k hk; rw [ho] at hk; exact .inl (by simpa [Op.sendsTo] using hk)
    · cases h
  | .send j :: r =>
    rw [ho] at h hf
    simp only [Option.some.injEq, Prod.mk.injEq] at h
    obtain ⟨rfl, rfl⟩ := h
    refine ⟨hf.2, hq, hc, fun m hm => .inl hm, ?_, fun k hk => List.mem_cons_of_mem _ hk, fun k hk => .inl hk, ?_, rfl⟩
    · intro k hk; rw [ho]; exact .inl (by simp only [List.any_cons, hk, Bool.or_true])
    · intro k hk
      rw [ho] at hk
      simp only [List.any_cons, Op.sendsTo, Bool.or_eq_true, beq_iff_eq] at hk
      rcases hk with rfl | hk
      · exact .inr List.mem_cons_self
      · exact .inl hk
  | .call c :: r =>
    rw [ho] at h hf
    simp only [Option.some.injEq] at h
    obtain ⟨ha, hr⟩ := hf
    have htell : ∀ k, t.ops.any (Op.sendsTo k) = true → r.any (Op.sendsTo k) = true := by
      intro k hk; rw [ho] at hk; simpa [Op.sendsTo] using hk
    have hwait : ∀ k, r.any (Op.waits k) = true → t.ops.any (Op.waits k) = true := by
      intro k hk; rw [ho]; simp only [List.any_cons, hk, Bool.or_true]
    -- nothing happens
    have quiet : ∀ x : Thread × Shared, x = ({ t with ops := r }, sh) → (t', sh') = x → Local fixed free t sh t' sh' := by
      intro x hx hy
      rw [hx] at hy
      simp only [Prod.mk.injEq] at hy
      obtain ⟨rfl, rfl⟩ := hy
      exact ⟨hr, hq, hc, fun m hm => .inl hm, fun k hk => .inl (hwait k hk), fun k hk => hk, fun k hk => .inl hk,
        fun k hk => .inl (htell k hk), rfl⟩
    -- some steps are put in front
    have front : ∀ os : List Op, Fits fixed t.ctx (os ++ r) → (∀ k, os.any (Op.waits k) = false) → (t', sh') = ({ t with ops := os ++ r }, sh) →
        Local fixed free t sh t' sh' := by
      intro os hfo hwo hy
      simp only [Prod.mk.injEq] at hy
      obtain ⟨rfl, rfl⟩ := hy
      refine ⟨hfo, hq, hc, fun m hm => .inl hm, fun k hk => .inl (hwait k ?_), fun k hk => hk, fun k hk => .inl hk,
        fun k hk => .inl ?_, rfl⟩
      · simpa [List.any_append, hwo k] using hk
      · simp only [List.any_append, htell k hk, Bool.or_true]
    -- a message is sent
    have sent : ∀ (bl : Bool) (m : Msg), (!bl || t.ctx.mayWait) = true → m.ok fixed = true → (bl = true → m.completes sh.next = true) →
        (t', sh') = ({ t with ops := awaits bl sh.next ++ r }, { sh with queue := sh.queue ++ [m], next := sh.next + 1 }) →
        Local fixed free t sh t' sh' := by
      intro bl m hb hm hcomp hy
      simp only [Prod.mk.injEq] at hy
      obtain ⟨rfl, rfl⟩ := hy
      refine ⟨fits_awaits bl _ hb hr, ?_, hc, fun m hm => .inl hm, ?_, fun k hk => hk, ?_, ?_, rfl⟩
      · intro m' hm'
        rcases List.mem_append.mp hm' with hm' | hm'
        · exact hq m' hm'
        · rw [List.mem_singleton.mp hm']; exact hm
      · intro k hk
        simp only [List.any_append, Bool.or_eq_true] at hk
        rcases hk with hk | hk
        · obtain ⟨hbl, rfl⟩ := awaits_waits bl _ _ hk
          exact .inr (by simp [List.any_append, hcomp hbl])
        · exact .inl (hwait k hk)
      · intro k hk; exact .inl (by simp only [List.any_append, hk, Bool.true_or])
      · intro k hk; exact .inl (by simp only [List.any_append, htell k hk, Bool.or_true])
    obtain ⟨kind, a, b, c⟩ := c
    cases kind with
    | log bl full =>
      simp only [start] at h
      simp only [allowed] at ha
      split at h
      · exact quiet _ rfl h.symm
      · rename_i hg
        simp only [Bool.or_eq_true, not_or, Bool.not_eq_true] at hg
        have hx : t.ctx.guard = false := hg.1
        rw [hx, hg.2] at ha
        simp only [Bool.false_or, Bool.and_eq_true] at ha
        refine sent bl (.log a b (if bl then some sh.next else none)) ha.1.1 (by simp [Msg.ok, ha.1.2, ha.2]) ?_ h.symm
        intro hbl; simp [Msg.completes, hbl]
    | field full =>
      simp only [start] at h
      split at h
      · exact quiet _ rfl h.symm
      · simp only [Prod.mk.injEq] at h
        obtain ⟨rfl, rfl⟩ := h
        refine ⟨hr, ?_, hc, fun m hm => .inl hm, fun k hk => .inl (hwait k hk), fun k hk => hk, ?_,
          fun k hk => .inl (htell k hk), rfl⟩
        · intro m' hm'
          rcases List.mem_append.mp hm' with hm' | hm'
          · exact hq m' hm'
          · rw [List.mem_singleton.mp hm']; rfl
        · intro k hk; exact .inl (by simp only [List.any_append, hk, Bool.true_or])
    | flush bl full =>
      simp only [start] at h
      simp only [allowed] at ha
      split at h
      · exact quiet _ rfl h.symm
      · rename_i hg
        simp only [Bool.not_eq_true] at hg
        rw [hg] at ha
        simp only [Bool.false_or, Bool.and_eq_true] at ha
        refine sent bl (.flush a (if bl then some sh.next else none)) ha.1 ha.2 ?_ h.symm
        intro hbl; simp [Msg.completes, hbl]
    | sessionId =>
      simp only [start] at h
      simp only [allowed] at ha
      split at h
      · exact quiet _ rfl h.symm
      · rename_i hg
        rw [show (fixed && t.ctx.flag) = false from by simpa [Thread.ctx] using hg, Bool.false_or] at ha
        refine front _ (fits_locked ?_ ha hr) (fun k => waits_locked k _ _ _ _) h.symm
        intro hfx; simpa [hfx, Thread.ctx] using hg
    | startNew =>
      simp only [start] at h
      simp only [allowed] at ha
      split at h
      · exact quiet _ rfl h.symm
      · rename_i hg
        have hg' : t.guard = false ∧ (fixed && t.flag) = false := by
          simpa [Bool.or_eq_true, not_or] using hg
        rw [show t.ctx.guard = false from hg'.1, show (fixed && t.ctx.flag) = false from hg'.2, Bool.false_or, Bool.false_or] at ha
        refine front _ (fits_locked ?_ ha hr) (fun k => waits_locked k _ _ _ _) h.symm
        intro hfx; simpa [hfx, Thread.ctx] using hg'.2
    | prevId =>
      simp only [start] at h
      simp only [allowed, Bool.and_eq_true] at ha
      refine front (.acq .session :: (calls a ++ [.rel .session])) ?_ ?_ ?_
      · simp only [List.cons_append, List.append_assoc, List.nil_append]
        exact ⟨ha.1, fits_calls ha.2 ⟨t.held, rfl, hr⟩⟩
      · intro k; simp [List.any_append, waits_calls, Op.waits]
      · simpa using h.symm
    | deviceId =>
      simp only [start] at h
      simp only [allowed, Bool.and_eq_true] at ha
      refine front (.acq .device :: (calls a ++ [.rel .device])) ?_ ?_ ?_
      · simp only [List.cons_append, List.append_assoc, List.nil_append]
        exact ⟨ha.1, fits_calls ha.2 ⟨t.held, rfl, hr⟩⟩
      · intro k; simp [List.any_append, waits_calls, Op.waits]
      · simpa using h.symm
    | report =>
      simp only [start] at h
      simp only [allowed, Bool.and_eq_true] at ha
      refine front (.acq .error :: (calls a ++ [.rel .error])) ?_ ?_ ?_
      · simp only [List.cons_append, List.append_assoc, List.nil_append]
        exact ⟨ha.1, fits_calls ha.2 ⟨t.held, rfl, hr⟩⟩
      · intro k; simp [List.any_append, waits_calls, Op.waits]
      · simpa using h.symm

theorem free_not_held {s : St} {m : Lock} (h : s.free m = true) : ∀ t ∈ s.threads, m ∉ t.held := by
  intro t ht
  have := List.all_eq_true.mp h t ht
  simpa using this

theorem Inv.step {fixed : Bool} {s s' : St} (h : Inv fixed s) (hs : Step fixed s s') : Inv fixed s' := by
  cases hs with
  | @mk l r t t' sh sh' ha =>
    have hmem : t ∈ l ++ t :: r := by simp
    have L := act_local ha (h.fits t hmem) h.queue h.fine
    have others : ∀ u, u ∈ l ++ r → u ∈ l ++ t :: r := by
      intro u hu
      rcases List.mem_append.mp hu with hu | hu
      · exact List.mem_append_left _ hu
      · exact List.mem_append_right _ (List.mem_cons_of_mem _ hu)
    have split : ∀ u, u ∈ l ++ t' :: r → u = t' ∨ u ∈ l ++ r := by
      intro u hu
      rcases List.mem_append.mp hu with hu | hu
      · exact .inr (List.mem_append_left _ hu)
      · rcases List.mem_cons.mp hu with rfl | hu
        · exact .inl rfl
        · exact .inr (List.mem_append_right _ hu)
    -- `t'` holds nothing the others hold
    have hnew : ∀ m ∈ t'.held, ∀ u ∈ l ++ r, m ∉ u.held := by
      intro m hm u hu
      rcases L.held m hm with hm | hm
      · exact h.locks m l t r rfl hm u hu
      · exact free_not_held hm u (others u hu)
    refine ⟨?_, L.queue, ?_, ?_, L.fine⟩
    · intro u hu
      rcases split u hu with rfl | hu
      · exact L.fits
      · exact h.fits u (others u hu)
    · intro m l2 u r2 heq hm w hw
      simp only at heq
      -- is `u` the thread that moved?
      rcases List.append_eq_append_iff.mp heq with ⟨as, h1, h2⟩ | ⟨bs, h1, h2⟩
      · cases as with
        | nil =>
          simp only [List.nil_append, List.cons.injEq] at h2
          obtain ⟨rfl, rfl⟩ := h2
          rw [List.append_nil] at h1
          subst h1
          exact hnew m hm w hw
        | cons x as =>
          simp only [List.cons_append, List.cons.injEq] at h2
          obtain ⟨rfl, rfl⟩ := h2
          subst h1
          have hold := h.locks m (l ++ t :: as) u r2 (by simp) hm
          rcases List.mem_append.mp hw with hw | hw
          · rcases List.mem_append.mp hw with hw | hw
            · exact hold w (by simp [hw])
            · rcases List.mem_cons.mp hw with rfl | hw
              · intro hmt
                exact hnew m hmt u (by simp) hm
              · exact hold w (by simp [hw])
          · exact hold w (by simp [hw])
      · cases bs with
        | nil =>
          simp only [List.nil_append, List.cons.injEq] at h2
          obtain ⟨rfl, rfl⟩ := h2
          rw [List.append_nil] at h1
          subst h1
          exact hnew m hm w hw
        | cons x bs =>
          simp only [List.cons_append, List.cons.injEq] at h2
          obtain ⟨rfl, rfl⟩ := h2
          subst h1
          have hold := h.locks m l2 u (bs ++ t :: r) (by simp) hm
          rcases List.mem_append.mp hw with hw | hw
          · exact hold w (by simp [hw])
          · rcases List.mem_append.mp hw with hw | hw
            · exact hold w (by simp [hw])
            · rcases List.mem_cons.mp hw with rfl | hw
              · intro hmt
                exact hnew m hmt u (by simp) hm
              · exact hold w (by simp [hw])
    · -- who waits
      intro u hu k hk
      have carry : (k ∈ sh.done ∨ sh.queue.any (Msg.completes k) = true ∨ ∃ v ∈ l ++ t :: r, v.ops.any (Op.sendsTo k) = true) →
          k ∈ sh'.done ∨ sh'.queue.any (Msg.completes k) = true ∨ ∃ v ∈ l ++ t' :: r, v.ops.any (Op.sendsTo k) = true := by
        rintro (hd | hq | ⟨v, hv, hvk⟩)
        · exact .inl (L.done k hd)
        · rcases L.pend k hq with h | h
          · exact .inr (.inl h)
          · exact .inr (.inr ⟨t', by simp, h⟩)
        · rcases List.mem_append.mp hv with hv | hv
          · exact .inr (.inr ⟨v, by simp [hv], hvk⟩)
          · rcases List.mem_cons.mp hv with rfl | hv
            · rcases L.tell k hvk with h | h
              · exact .inr (.inr ⟨t', by simp, h⟩)
              · exact .inl h
            · exact .inr (.inr ⟨v, by simp [hv], hvk⟩)
      rcases split u hu with rfl | hu
      · rcases L.waits k hk with h1 | h1
        · exact carry (h.waits t hmem k h1)
        · exact .inr (.inl h1)
      · exact carry (h.waits u (others u hu) k hk)


/-! ### Somebody can go on -/

theorem mem_split {α : Type} {a : α} {l : List α} (h : a ∈ l) : ∃ x y, l = x ++ a :: y := List.append_of_mem h

theorem can_step {fixed : Bool} {s : St} {t : Thread} (ht : t ∈ s.threads) {x : Thread × Shared}
    (h : act fixed s.free t s.sh = some x) : ∃ s', Step fixed s s' := by
  obtain ⟨l, r, hl⟩ := mem_split ht
  obtain ⟨threads, sh⟩ := s
  simp only at hl
  subst hl
  exact ⟨_, .mk (t' := x.1) (sh' := x.2) h⟩

theorem holder {s : St} {m : Lock} (h : s.free m = false) : ∃ t ∈ s.threads, m ∈ t.held := by
  simp only [St.free, List.all_eq_false] at h
  obtain ⟨t, ht, hm⟩ := h
  exact ⟨t, ht, by simpa using hm⟩

/-- If somebody waits for a lock, somebody else can go on. -/
theorem unblock {fixed : Bool} {s : St} (h : Inv fixed s) : ∀ (n : Nat) (m : Lock), 3 - level m ≤ n → s.free m = false →
    ∃ s', Step fixed s s' := by
  intro n
  induction n with
  | zero => intro m hn; cases m <;> simp [level] at hn
  | succ n ih =>
    intro m hn hm
    obtain ⟨t, ht, hmt⟩ := holder hm
    have hf := h.fits t ht
    match ho : t.ops with
    | [] => rw [ho] at hf; exact absurd hmt (by have : t.held = [] := hf.1; rw [this]; simp)
    | .acq m' :: r =>
      rw [ho] at hf
      have hlt : level m < level m' := by
        have := List.all_eq_true.mp hf.1 m hmt
        simpa using this
      cases hfree : s.free m' with
      | false => exact ih m' (by cases m <;> cases m' <;> simp [level] at hlt hn ⊢ <;> omega) hfree
      | true => exact can_step ht (x := ({ t with ops := r, held := m' :: t.held }, s.sh)) (by unfold act; rw [ho]; simp [hfree])
    | .rel m' :: r => exact can_step ht (x := ({ t with ops := r, held := t.held.erase m' }, s.sh)) (by unfold act; rw [ho])
    | .borrow :: r =>
      rw [ho] at hf
      have hg : t.guard = false := hf.1
      exact can_step ht (x := ({ t with ops := r, guard := true }, s.sh)) (by unfold act; rw [ho]; simp [hg])
    | .release :: r => exact can_step ht (x := ({ t with ops := r, guard := false }, s.sh)) (by unfold act; rw [ho])
    | .flag b :: r => exact can_step ht (x := ({ t with ops := r, flag := b }, s.sh)) (by unfold act; rw [ho])
    | .call c :: r => exact can_step ht (x := start fixed t s.sh r c) (by unfold act; rw [ho])
    | .wait k :: r => rw [ho] at hf; exact absurd hmt (by have : t.held = [] := hf.1; rw [this]; simp)
    | .send k :: r =>
      exact can_step ht (x := ({ t with ops := r }, { s.sh with done := k :: s.sh.done })) (by unfold act; rw [ho])

/-- Everything is done. -/
def St.finished (s : St) : Prop := s.sh.queue = [] ∧ ∀ t ∈ s.threads, t.ops = [] ∧ t.held = [] ∧ t.guard = false ∧ t.flag = false

theorem progress {fixed : Bool} {s : St} (h : Inv fixed s) (hl : ∃ t ∈ s.threads, t.onLog = true) :
    s.finished ∨ ∃ s', Step fixed s s' := by
  by_cases hstep : ∃ s', Step fixed s s'
  · exact .inr hstep
  left
  -- nobody can go on: everybody is finished or waits for a completion that has not come
  have key : ∀ t ∈ s.threads, t.ops = [] ∨ ∃ k r, t.ops = .wait k :: r ∧ k ∉ s.sh.done := by
    intro t ht
    have hf := h.fits t ht
    match ho : t.ops with
    | [] => exact .inl rfl
    | .acq m :: r =>
      cases hfree : s.free m with
      | false => exact absurd (unblock h 3 m (by omega) hfree) hstep
      | true => exact absurd (can_step ht (x := ({ t with ops := r, held := m :: t.held }, s.sh)) (by unfold act; rw [ho]; simp [hfree])) hstep
    | .rel m' :: r => exact absurd (can_step ht (x := ({ t with ops := r, held := t.held.erase m' }, s.sh)) (by unfold act; rw [ho])) hstep
    | .borrow :: r =>
      rw [ho] at hf
      have hg : t.guard = false := hf.1
      exact absurd (can_step ht (x := ({ t with ops := r, guard := true }, s.sh)) (by unfold act; rw [ho]; simp [hg])) hstep
    | .release :: r => exact absurd (can_step ht (x := ({ t with ops := r, guard := false }, s.sh)) (by unfold act; rw [ho])) hstep
    | .flag b :: r => exact absurd (can_step ht (x := ({ t with ops := r, flag := b }, s.sh)) (by unfold act; rw [ho])) hstep
    | .call c :: r => exact absurd (can_step ht (x := start fixed t s.sh r c) (by unfold act; rw [ho])) hstep
    | .wait k :: r =>
      rw [ho] at hf
      refine .inr ⟨k, r, rfl, fun hk => ?_⟩
      have hlog : t.onLog = false := hf.2.1
      exact absurd (can_step ht (x := ({ t with ops := r }, s.sh)) (by unfold act; rw [ho]; simp only; rw [if_neg (by rw [hlog]; simp), if_pos hk])) hstep
    | .send k :: r =>
      exact absurd (can_step ht (x := ({ t with ops := r }, { s.sh with done := k :: s.sh.done })) (by unfold act; rw [ho])) hstep
  have hq : s.sh.queue = [] := by
    obtain ⟨t, ht, hlog⟩ := hl
    rcases key t ht with ho | ⟨k, r, ho, _⟩
    · cases hqq : s.sh.queue with
      | nil => rfl
      | cons m q => exact absurd (can_step ht (x := ({ t with ops := m.ops }, { s.sh with queue := q })) (by unfold act; rw [ho]; simp [hlog, hqq])) hstep
    · have hf := h.fits t ht
      rw [ho] at hf
      have : t.onLog = false := hf.2.1
      rw [hlog] at this
      cases this
  refine ⟨hq, fun t ht => ?_⟩
  have hnil : t.ops = [] := by
    rcases key t ht with ho | ⟨k, r, ho, hk⟩
    · exact ho
    · exfalso
      rcases h.waits t ht k (by rw [ho]; simp [Op.waits]) with hd | hc | ⟨u, hu, huk⟩
      · exact hk hd
      · rw [hq] at hc; cases hc
      · rcases key u hu with ho' | ⟨k', r', ho', _⟩
        · rw [ho'] at huk; cases huk
        · have hf := h.fits u hu
          rw [ho'] at hf
          obtain ⟨o, ho, hok⟩ := List.any_eq_true.mp huk
          rw [ho'] at ho
          have := fits_silent k hf hf.2.1 o ho
          cases o with
          | send j => simp only [Op.sendsTo, beq_iff_eq] at hok; exact this (by rw [hok])
          | _ => cases hok
  have hf := h.fits t ht
  rw [hnil] at hf
  exact ⟨hnil, hf.1, hf.2.1, hf.2.2⟩


/-! ### Nobody goes on for ever -/

mutual
def Call.weight : Call → Nat
  | .node _ a b c => 10 + weights a + weights b + weights c
def weights : List Call → Nat
  | [] => 0
  | c :: l => c.weight + weights l
end

def Op.weight : Op → Nat
  | .call c => c.weight
  | _ => 1

def opsWeight (l : List Op) : Nat := (l.map Op.weight).sum
def Msg.weight (m : Msg) : Nat := 1 + opsWeight m.ops
def queueWeight (l : List Msg) : Nat := (l.map Msg.weight).sum
/-- What there is to do at most. -/
def St.weight (s : St) : Nat := (s.threads.map fun t => opsWeight t.ops).sum + queueWeight s.sh.queue

theorem ow_cons (o : Op) (l : List Op) : opsWeight (o :: l) = o.weight + opsWeight l := by simp [opsWeight]
theorem ow_append (a b : List Op) : opsWeight (a ++ b) = opsWeight a + opsWeight b := by simp [opsWeight]
theorem ow_nil : opsWeight [] = 0 := rfl
theorem ow_calls : ∀ l : List Call, opsWeight (calls l) = weights l
  | [] => rfl
  | c :: l => by rw [calls, List.map_cons, ow_cons]; show c.weight + opsWeight (calls l) = _; rw [ow_calls l]; rfl
theorem ow_sends (k : Option Nat) : opsWeight (sends k) ≤ 1 := by cases k <;> simp [sends, opsWeight, Op.weight]
theorem ow_awaits (b : Bool) (k : Nat) : opsWeight (awaits b k) ≤ 1 := by cases b <;> simp [awaits, opsWeight, Op.weight]
theorem qw_append (a b : List Msg) : queueWeight (a ++ b) = queueWeight a + queueWeight b := by simp [queueWeight]
theorem qw_nil : queueWeight [] = 0 := rfl
theorem qw_cons (m : Msg) (l : List Msg) : queueWeight (m :: l) = m.weight + queueWeight l := by simp [queueWeight]

theorem ow_locked (f : Bool) (a b c : List Call) : opsWeight (locked f a b c) ≤ 4 + weights a + weights b + weights c := by
  unfold locked
  cases f <;> simp [ow_cons, ow_append, ow_calls, ow_nil, Op.weight] <;> omega

theorem act_weight {fixed : Bool} {free : Lock → Bool} {t t' : Thread} {sh sh' : Shared} (h : act fixed free t sh = some (t', sh')) :
    opsWeight t'.ops + queueWeight sh'.queue < opsWeight t.ops + queueWeight sh.queue := by
  unfold act at h
  match ho : t.ops with
  | [] =>
    rw [ho] at h
    simp only at h
    split at h
    · cases hq : sh.queue with
      | nil => rw [hq] at h; cases h
      | cons m q =>
        rw [hq] at h
        simp only [Option.some.injEq, Prod.mk.injEq] at h
        obtain ⟨rfl, rfl⟩ := h
        rw [qw_cons, Msg.weight]
        simp only [ow_nil]
        omega
    · cases h
  | .acq m :: r =>
    rw [ho] at h
    simp only at h
    split at h
    · simp only [Option.some.injEq, Prod.mk.injEq] at h
      obtain ⟨rfl, rfl⟩ := h
      simp [ow_cons, Op.weight]
    · cases h
  | .rel m :: r =>
    rw [ho] at h
    simp only [Option.some.injEq, Prod.mk.injEq] at h
    obtain ⟨rfl, rfl⟩ := h
    simp [ow_cons, Op.weight]
  | .borrow :: r =>
    rw [ho] at h
    simp only at h
    split at h <;>
    · simp only [Option.some.injEq, Prod.mk.injEq] at h
      obtain ⟨rfl, rfl⟩ := h
      simp [ow_cons, ow_nil, Op.weight]
      try omega
  | .release :: r =>
    rw [ho] at h
    simp only [Option.some.injEq, Prod.mk.injEq] at h
    obtain ⟨rfl, rfl⟩ := h
    simp [ow_cons, Op.weight]
  | .flag b :: r =>
    rw [ho] at h
    simp only [Option.some.injEq, Prod.mk.injEq] at h
    obtain ⟨rfl, rfl⟩ := h
    simp [ow_cons, Op.weight]
  | .wait j :: r =>
    rw [ho] at h
    simp only at h
    split at h
    · simp only [Option.some.injEq, Prod.mk.injEq] at h
      obtain ⟨rfl, rfl⟩ := h
      simp [ow_cons, ow_nil, Op.weight]
      try omega
    · split at h
      · simp only [Option.some.injEq, Prod.mk.injEq] at h
        obtain ⟨rfl, rfl⟩ := h
        simp [ow_cons, Op.weight]
      · cases h
  | .send j :: r =>
    rw [ho] at h
    simp only [Option.some.injEq, Prod.mk.injEq] at h
    obtain ⟨rfl, rfl⟩ := h
    simp [ow_cons, Op.weight]
  | .call c :: r =>
    rw [ho] at h
    simp only [Option.some.injEq] at h
    obtain ⟨kind, a, b, c⟩ := c
    rw [ow_cons]
    simp only [Op.weight, Call.weight]
    have hk : ∀ (bl : Bool) (k : Nat), opsWeight (sends (if bl then some k else none)) ≤ 1 := fun _ _ => ow_sends _
    have hw := ow_awaits
    cases kind with
    | log bl full =>
      simp only [start] at h
      split at h <;>
      · simp only [Prod.mk.injEq] at h
        obtain ⟨rfl, rfl⟩ := h
        have h1 := hk bl sh.next
        have h2 := hw bl sh.next
        simp only [ow_append, ow_cons, ow_nil, qw_append, qw_cons, Msg.weight, Msg.ops, ow_calls, Op.weight, qw_nil] at *
        omega
    | field full =>
      simp only [start] at h
      split at h <;>
      · simp only [Prod.mk.injEq] at h
        obtain ⟨rfl, rfl⟩ := h
        simp only [ow_nil, qw_append, qw_cons, Msg.weight, Msg.ops, qw_nil]
        omega
    | flush bl full =>
      simp only [start] at h
      split at h <;>
      · simp only [Prod.mk.injEq] at h
        obtain ⟨rfl, rfl⟩ := h
        have h1 := hk bl sh.next
        have h2 := hw bl sh.next
        simp only [ow_append, ow_cons, ow_nil, qw_append, qw_cons, Msg.weight, Msg.ops, ow_calls, Op.weight, qw_nil] at *
        omega
    | sessionId =>
      simp only [start] at h
      have := ow_locked fixed a b c
      split at h <;>
      · simp only [Prod.mk.injEq] at h
        obtain ⟨rfl, rfl⟩ := h
        simp only [ow_append]
        omega
    | startNew =>
      simp only [start] at h
      have := ow_locked fixed a b c
      split at h <;>
      · simp only [Prod.mk.injEq] at h
        obtain ⟨rfl, rfl⟩ := h
        simp only [ow_append]
        omega
    | prevId =>
      simp only [start, Prod.mk.injEq] at h
      obtain ⟨rfl, rfl⟩ := h
      simp only [ow_append, ow_cons, ow_calls, Op.weight]
      omega
    | deviceId =>
      simp only [start, Prod.mk.injEq] at h
      obtain ⟨rfl, rfl⟩ := h
      simp only [ow_append, ow_cons, ow_calls, Op.weight]
      omega
    | report =>
      simp only [start, Prod.mk.injEq] at h
      obtain ⟨rfl, rfl⟩ := h
      simp only [ow_append, ow_cons, ow_calls, Op.weight]
      omega

theorem step_weight {fixed : Bool} {s s' : St} (h : Step fixed s s') : s'.weight < s.weight := by
  cases h with
  | mk ha =>
    have := act_weight ha
    simp only [St.weight, List.map_append, List.map_cons, List.sum_append, List.sum_cons]
    omega

theorem steps_weight {fixed : Bool} {n : Nat} {s s' : St} (h : Steps fixed n s s') : n + s'.weight ≤ s.weight := by
  induction h with
  | refl => simp
  | next h1 _ ih => have := step_weight h1; omega

theorem step_logs {fixed : Bool} {s s' : St} (h : Step fixed s s') (hl : ∃ t ∈ s.threads, t.onLog = true)
    (hi : Inv fixed s) : ∃ t ∈ s'.threads, t.onLog = true := by
  cases h with
  | @mk l r t t' sh sh' ha =>
    have L := act_local ha (hi.fits t (by simp)) hi.queue hi.fine
    obtain ⟨u, hu, hul⟩ := hl
    rcases List.mem_append.mp hu with hu | hu
    · exact ⟨u, by simp [hu], hul⟩
    · rcases List.mem_cons.mp hu with rfl | hu
      · exact ⟨t', by simp, by rw [L.same]; exact hul⟩
      · exact ⟨u, by simp [hu], hul⟩

/-! ### C75 -/

/-- A caller, or the log thread, with calls to make. -/
def Thread.make (onLog : Bool) (l : List Call) : Thread := ⟨calls l, onLog, [], false, false⟩

/-- **C75 (partial).** Take any number of threads, among them the log thread, each making calls, with callbacks that make calls, and so
on to any depth, keeping to the rules.  However the threads are scheduled: nobody panics, and after a bounded number of steps all
calls have returned, all messages are processed, and all locks are free; until then, some thread can go on.
Missing, because false: calls that break a rule (`C75_…_violated`). -/
theorem C75_returns_partial (fixed : Bool) (ts : List (Bool × List Call)) (hl : ∃ t ∈ ts, t.1 = true)
    (hr : ∀ t ∈ ts, allowedAll fixed ⟨[], false, false, t.1⟩ t.2 = true) (n : Nat) (s : St)
    (h : Steps fixed n ⟨ts.map fun t => Thread.make t.1 t.2, {}⟩ s) :
    s.sh.crashed = false ∧ n ≤ (St.mk (ts.map fun t => Thread.make t.1 t.2) {}).weight ∧
    (s.finished ∨ ∃ s', Step fixed s s') := by
  have hi : Inv fixed ⟨ts.map fun t => Thread.make t.1 t.2, {}⟩ := by
    refine ⟨?_, by simp, ?_, ?_, rfl⟩
    · intro t ht
      obtain ⟨x, hx, rfl⟩ := List.mem_map.mp ht
      have := fits_calls (r := []) (hr x hx) ⟨rfl, rfl, rfl⟩
      rw [List.append_nil] at this
      exact this
    · intro m l t r heq hm
      have : t ∈ ts.map fun t => Thread.make t.1 t.2 := by simp only at heq; rw [heq]; simp
      obtain ⟨x, hx, rfl⟩ := List.mem_map.mp this
      cases hm
    · intro t ht k hk
      obtain ⟨x, hx, rfl⟩ := List.mem_map.mp ht
      simp only [Thread.make, waits_calls] at hk
      cases hk
  have hlog : ∃ t ∈ (St.mk (ts.map fun t => Thread.make t.1 t.2) {}).threads, t.onLog = true := by
    obtain ⟨t, ht, hlt⟩ := hl
    exact ⟨_, List.mem_map.mpr ⟨t, ht, rfl⟩, hlt⟩
  have hw := steps_weight h
  generalize (St.mk (ts.map fun t => Thread.make t.1 t.2) {}) = s0 at hi hlog hw h
  have : Inv fixed s ∧ ∃ t ∈ s.threads, t.onLog = true := by
    clear hw
    induction h with
    | refl => exact ⟨hi, hlog⟩
    | next h1 _ ih => exact ih (hi.step h1) (step_logs h1 hlog hi)
  exact ⟨this.1.fine, by omega, progress this.1 this.2⟩

/-- **C75.** Platform code called while the guard is borrowed, that is, a field provider, adds no log and no field change to the queue. -/
theorem C75_guard (fixed : Bool) (l r : List Thread) (t t' : Thread) (sh sh' : Shared) (hg : t.guard = true)
    (ho : t.ops ≠ [])
    (h : act fixed (St.free ⟨l ++ t :: r, sh⟩) t sh = some (t', sh')) :
    sh'.queue = sh.queue ∨ ∃ a k, sh'.queue = sh.queue ++ [.flush a k] := by
  unfold act at h
  match hop : t.ops with
  | [] => exact absurd hop ho
  | .acq m :: _ | .wait k :: _ | .borrow :: _ =>
    rw [hop] at h
    simp only at h
    repeat' split at h
    all_goals first
      | (cases h; done)
      | (simp only [Option.some.injEq, Prod.mk.injEq] at h; obtain ⟨rfl, rfl⟩ := h; exact .inl rfl)
  | .rel m :: _ | .release :: _ | .flag b :: _ | .send k :: _ =>
    rw [hop] at h
    simp only [Option.some.injEq, Prod.mk.injEq] at h
    obtain ⟨rfl, rfl⟩ := h
    exact .inl rfl
  | .call (.node kind a b c) :: rest =>
    rw [hop] at h
    simp only [Option.some.injEq] at h
    cases kind <;> simp only [start, hg, Bool.true_or, if_true] at h
    case flush bl full =>
      split at h <;> (simp only [Prod.mk.injEq] at h; obtain ⟨rfl, rfl⟩ := h)
      · exact .inl rfl
      · exact .inr ⟨_, _, rfl⟩
    case sessionId =>
      split at h <;> (simp only [Prod.mk.injEq] at h; obtain ⟨rfl, rfl⟩ := h) <;> exact .inl rfl
    all_goals (simp only [Prod.mk.injEq] at h; obtain ⟨rfl, rfl⟩ := h; exact .inl rfl)


/-! ### Runs with a given schedule -/

def stepAt (fixed : Bool) (s : St) (i : Nat) : Option St :=
  match s.threads[i]? with
  | some t => (act fixed s.free t s.sh).map fun x => ⟨s.threads.take i ++ x.1 :: s.threads.drop (i + 1), x.2⟩
  | none => none

def runAt (fixed : Bool) (s : St) : List Nat → Option St
  | [] => some s
  | i :: l => (stepAt fixed s i).bind fun s' => runAt fixed s' l

theorem stepAt_step {fixed : Bool} {s s' : St} {i : Nat} (h : stepAt fixed s i = some s') : Step fixed s s' := by
  unfold stepAt at h
  cases ht : s.threads[i]? with
  | none => rw [ht] at h; cases h
  | some t =>
    rw [ht] at h
    simp only [Option.map_eq_some_iff] at h
    obtain ⟨x, hx, rfl⟩ := h
    obtain ⟨hi, rfl⟩ := List.getElem?_eq_some_iff.mp ht
    obtain ⟨threads, sh⟩ := s
    simp only at hi hx ⊢
    have hsplit : threads = threads.take i ++ threads[i] :: threads.drop (i + 1) := by
      rw [← List.drop_eq_getElem_cons hi, List.take_append_drop]
    have := Step.mk (fixed := fixed) (l := threads.take i) (r := threads.drop (i + 1)) (t := threads[i]) (t' := x.1) (sh := sh) (sh' := x.2)
      (by rw [← hsplit]; exact hx)
    rw [← hsplit] at this
    exact this

theorem runAt_steps {fixed : Bool} : ∀ {l : List Nat} {s s' : St}, runAt fixed s l = some s' → Steps fixed l.length s s'
  | [], s, s', h => by simp only [runAt, Option.some.injEq] at h; subst h; exact .refl
  | i :: l, s, s', h => by
    simp only [runAt, Option.bind_eq_some_iff] at h
    obtain ⟨u, hu, h⟩ := h
    exact .next (stepAt_step hu) (runAt_steps h)

/-- Somebody still has something to do, and nobody can do anything. -/
def St.stuck (fixed : Bool) (s : St) : Bool :=
  s.threads.any (fun t => !t.ops.isEmpty) && s.threads.all fun t => (act fixed s.free t s.sh).isNone

theorem stuck_spec {fixed : Bool} {s : St} (h : s.stuck fixed = true) : (∃ t ∈ s.threads, t.ops ≠ []) ∧ ∀ s', ¬ Step fixed s s' := by
  simp only [St.stuck, Bool.and_eq_true, List.any_eq_true, List.all_eq_true] at h
  obtain ⟨⟨t, ht, h1⟩, h2⟩ := h
  refine ⟨⟨t, ht, by simpa using h1⟩, fun s' hs => ?_⟩
  cases hs with
  | @mk l r t t' sh sh' ha =>
    have := h2 t (by simp)
    rw [ha] at this
    cases this

/-- From these calls, a state is reached in which a call never returns. -/
def Blocks (fixed : Bool) (ts : List (Bool × List Call)) : Prop :=
  ∃ n s, Steps fixed n ⟨ts.map fun t => Thread.make t.1 t.2, {}⟩ s ∧ (∃ t ∈ s.threads, t.ops ≠ []) ∧ ∀ s', ¬ Step fixed s s'

/-- From these calls, a state is reached in which the log thread has panicked. -/
def Panics (fixed : Bool) (ts : List (Bool × List Call)) : Prop :=
  ∃ n s, Steps fixed n ⟨ts.map fun t => Thread.make t.1 t.2, {}⟩ s ∧ s.sh.crashed = true

theorem blocks_of {fixed : Bool} {ts : List (Bool × List Call)} (sched : List Nat)
    (h : ((runAt fixed ⟨ts.map fun t => Thread.make t.1 t.2, {}⟩ sched).any (St.stuck fixed)) = true) : Blocks fixed ts := by
  cases hr : runAt fixed ⟨ts.map fun t => Thread.make t.1 t.2, {}⟩ sched with
  | none => rw [hr] at h; cases h
  | some s =>
    rw [hr] at h
    exact ⟨_, s, runAt_steps hr, stuck_spec h⟩

theorem panics_of {fixed : Bool} {ts : List (Bool × List Call)} (sched : List Nat)
    (h : ((runAt fixed ⟨ts.map fun t => Thread.make t.1 t.2, {}⟩ sched).any (fun s => s.sh.crashed)) = true) : Panics fixed ts := by
  cases hr : runAt fixed ⟨ts.map fun t => Thread.make t.1 t.2, {}⟩ sched with
  | none => rw [hr] at h; cases h
  | some s =>
    rw [hr] at h
    exact ⟨_, s, runAt_steps hr, h⟩

namespace Ex
def sid : Call := .node .sessionId [] [] []
def log (bl : Bool) (after : List Call) : Call := .node (.log bl false) [] after []
end Ex

/-- Calls that keep to the rules: a provider that logs, asks for the session and starts a new one, a callback of the fixed strategy that
asks for the session and logs, an error reporter that asks for the session, a blocking call on another thread. -/
def someCalls : List (Bool × List Call) :=
  [(true, []),
   (false, [.node (.log true false) [Ex.log true [], Ex.sid, .node .startNew [] [] []] [.node .sessionId [] [Ex.sid, Ex.log false [Ex.sid]] []] [],
     .node .report [Ex.sid, .node .deviceId [] [] []] [] []]),
   (false, [.node (.flush true false) [] [] [], .node .startNew [] [] []])]

example : (∃ t ∈ someCalls, t.1 = true) ∧ (∀ t ∈ someCalls, allowedAll true ⟨[], false, false, t.1⟩ t.2 = true) := by decide
/-- They do run: the first caller's log is sent, taken, and its provider's log is refused. -/
example : (runAt true ⟨someCalls.map fun t => Thread.make t.1 t.2, {}⟩ [1, 0, 0, 0]).any
    (fun s => s.sh.queue.isEmpty && s.threads.any (·.guard)) = true := by decide

/-- **C75 (violated).** The callback of the activity-based strategy asks for the session: it waits for its own lock. -/
theorem C75_session_callback_violated : Blocks false [(true, []), (false, [.node .sessionId [] [Ex.sid] []])] :=
  blocks_of [1, 1, 1] (by decide)

/-- **C75 (violated).** The callback of the fixed strategy asks the strategy (it is the embedder's object; the logger
does not expose this call) for the session of the previous process, which does not look at the flag. -/
theorem C75_previous_callback_violated :
    Blocks true [(true, []), (false, [.node .sessionId [] [.node .prevId [] [] []] []])] :=
  blocks_of [1, 1, 1, 1] (by decide)

/-- **C75 (violated).** The callback of the fixed strategy makes a blocking call: the log thread waits for the lock of the caller, the caller for
the log thread. -/
theorem C75_blocking_callback_violated :
    Blocks true [(true, []), (false, [.node .sessionId [] [Ex.log true [Ex.sid]] []])] :=
  blocks_of [1, 1, 1, 1, 0, 0, 0, 0] (by decide)

/-- **C75 (violated).** A field provider flushes and waits: `flush_state` does not ask the guard, and the log thread panics. -/
theorem C75_provider_flush_violated :
    Panics true [(true, []), (false, [.node (.log false false) [.node (.flush true false) [] [] []] [] []])] :=
  panics_of [1, 0, 0, 0, 0] (by decide)

/-- **C75 (violated).** An error is reported by the storage while the session is read: the reporter asks for the session. -/
theorem C75_storage_error_violated :
    Blocks true [(true, []), (false, [.node .sessionId [.node .report [Ex.sid] [] []] [] []])] :=
  blocks_of [1, 1, 1, 1, 1] (by decide)

/-- **C75 (violated).** An error occurs within the error reporter. -/
theorem C75_reporter_violated : Blocks true [(true, []), (false, [.node .report [.node .report [] [] []] [] []])] :=
  blocks_of [1, 1, 1] (by decide)

end Verif.Reentry
