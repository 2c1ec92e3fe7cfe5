import Verif.Report.Internal
import Mathlib.Data.List.Induction

/-
C87: the internal report counts every log exactly once.
-/
namespace Verif.Report

/-- Whether the log carries a report. -/
def isReport (x : Bool × ILog) : Bool := x.1 && decide (x.2 = ⟨3, some ""⟩)

/-- The logs after the last report. -/
def sinceReport (ls : List (Bool × ILog)) : List (Bool × ILog) := (ls.reverse.takeWhile fun x => !isReport x).reverse

/-- What is counted under each name. -/
def categories : List (String × (Nat → Bool)) :=
  [("", fun _ => true), ("_device", fun t => t == 6), ("_internal", fun t => t == 4), ("_network", fun t => t == 8),
   ("_normal", fun t => t == 0), ("_lifecycle", fun t => t == 2), ("_replay", fun t => t == 1), ("_resource", fun t => t == 3)]

/-- The number of logs of a category. -/
def count (p : Nat → Bool) (ls : List (Bool × ILog)) : Nat := ls.countP fun x => p x.2.ty

/-- The fields a report should carry: for each category, the logs of that category in `recent` and in `all`. -/
def expected (recent all : List (Bool × ILog)) : List (String × Nat) :=
  categories.flatMap fun c => [(c.1 ++ "_logs_count", count c.2 recent % 2 ^ 32), (c.1 ++ "_logs_total_count", count c.2 all % 2 ^ 32)]

/-- The counters hold the counts of these logs. -/
def Cnt.Holds (c : Cnt) (ls : List (Bool × ILog)) : Prop :=
  c.logs = count (fun _ => true) ls % 2 ^ 32 ∧ c.device = count (fun t => t == 6) ls % 2 ^ 32 ∧
  c.internal = count (fun t => t == 4) ls % 2 ^ 32 ∧ c.network = count (fun t => t == 8) ls % 2 ^ 32 ∧
  c.normal = count (fun t => t == 0) ls % 2 ^ 32 ∧ c.lifecycle = count (fun t => t == 2) ls % 2 ^ 32 ∧
  c.replay = count (fun t => t == 1) ls % 2 ^ 32 ∧ c.resource = count (fun t => t == 3) ls % 2 ^ 32

theorem count_snoc (p : Nat → Bool) (ls : List (Bool × ILog)) (x : Bool × ILog) :
    count p (ls ++ [x]) = count p ls + if p x.2.ty then 1 else 0 := by
  simp [count, List.countP_append, List.countP_cons]

theorem Cnt.Holds.inc {c : Cnt} {ls : List (Bool × ILog)} (h : c.Holds ls) (x : Bool × ILog) :
    (c.inc x.2.ty).Holds (ls ++ [x]) := by
  obtain ⟨h1, h2, h3, h4, h5, h6, h7, h8⟩ := h
  unfold Cnt.Holds
  simp only [count_snoc]
  generalize x.2.ty = t
  by_cases e6 : t = 6
  · subst e6
    simp [Cnt.inc, u32, h1, h2, h3, h4, h5, h6, h7, h8, Nat.mod_add_mod]
  by_cases e4 : t = 4
  · subst e4
    simp [Cnt.inc, u32, h1, h2, h3, h4, h5, h6, h7, h8, Nat.mod_add_mod]
  by_cases e2 : t = 2
  · subst e2
    simp [Cnt.inc, u32, h1, h2, h3, h4, h5, h6, h7, h8, Nat.mod_add_mod]
  by_cases e8 : t = 8
  · subst e8
    simp [Cnt.inc, u32, h1, h2, h3, h4, h5, h6, h7, h8, Nat.mod_add_mod]
  by_cases e0 : t = 0
  · subst e0
    simp [Cnt.inc, u32, h1, h2, h3, h4, h5, h6, h7, h8, Nat.mod_add_mod]
  by_cases e1 : t = 1
  · subst e1
    simp [Cnt.inc, u32, h1, h2, h3, h4, h5, h6, h7, h8, Nat.mod_add_mod]
  by_cases e3 : t = 3
  · subst e3
    simp [Cnt.inc, u32, h1, h2, h3, h4, h5, h6, h7, h8, Nat.mod_add_mod]
  simp [Cnt.inc, u32, h1, h2, h3, h4, h5, h6, h7, h8, e6, e4, e2, e8, e0, e1, e3, Nat.mod_add_mod]

theorem Cnt.holds_zero : Cnt.zero.Holds [] := by
  simp [Cnt.Holds, Cnt.zero, count]

theorem fields_expected {s : IState} {recent all : List (Bool × ILog)} (h1 : s.since.Holds recent) (h2 : s.total.Holds all) :
    s.fields = expected recent all := by
  obtain ⟨a1, a2, a3, a4, a5, a6, a7, a8⟩ := h1
  obtain ⟨b1, b2, b3, b4, b5, b6, b7, b8⟩ := h2
  simp only [IState.fields, expected, categories, List.flatMap_cons, List.flatMap_nil, List.append_nil, List.cons_append,
    List.nil_append, a1, a2, a3, a4, a5, a6, a7, a8, b1, b2, b3, b4, b5, b6, b7, b8]
  rfl

theorem sinceReport_snoc (ls : List (Bool × ILog)) (x : Bool × ILog) :
    sinceReport (ls ++ [x]) = if isReport x then [] else sinceReport ls ++ [x] := by
  unfold sinceReport
  rw [List.reverse_append, List.reverse_singleton, List.singleton_append, List.takeWhile_cons]
  cases isReport x <;> simp

theorem irun_snoc (s : IState) (ls : List (Bool × ILog)) (x : Bool × ILog) :
    s.run (ls ++ [x]) = (((s.run ls).1.process x.1 x.2).1, (s.run ls).2 ++ [((s.run ls).1.process x.1 x.2).2]) := by
  induction ls generalizing s with
  | nil => rfl
  | cons y ls ih => simp only [List.cons_append, IState.run, ih]

theorem process_eq (s : IState) (x : Bool × ILog) :
    s.process x.1 x.2 =
      if isReport x then (⟨.zero, s.total.inc x.2.ty⟩, (⟨s.since.inc x.2.ty, s.total.inc x.2.ty⟩ : IState).fields)
      else (⟨s.since.inc x.2.ty, s.total.inc x.2.ty⟩, []) := by
  rcases x with ⟨on, ty, msg⟩
  unfold IState.process isReport
  cases msg with
  | none => simp
  | some m =>
    simp only [ILog.mk.injEq, Option.some.injEq]
    by_cases h3 : ty = 3
    · by_cases hm : m = ""
      · subst hm h3
        cases on <;> simp
      · have : m.isEmpty = false := by
          rw [Bool.eq_false_iff]
          intro h
          exact hm (String.isEmpty_iff.mp h)
        simp [h3, hm, this]
    · simp [h3]

theorem holds_run (ls : List (Bool × ILog)) :
    (IState.init.run ls).1.since.Holds (sinceReport ls) ∧ (IState.init.run ls).1.total.Holds ls := by
  induction ls using List.reverseRecOn with
  | nil => exact ⟨Cnt.holds_zero, Cnt.holds_zero⟩
  | append_singleton ls x ih =>
    rw [irun_snoc, sinceReport_snoc]
    simp only [process_eq]
    split
    · exact ⟨Cnt.holds_zero, ih.2.inc x⟩
    · exact ⟨ih.1.inc x, ih.2.inc x⟩

/-- C87: whatever logs came before, the log that carries a report says how many logs of each type there were since the log that carried the
previous report (itself included, that one not) and in total; every other log is left as it is. -/
theorem C87_counts (ls : List (Bool × ILog)) (x : Bool × ILog) :
    (IState.init.run (ls ++ [x])).2 =
      (IState.init.run ls).2 ++ [if isReport x then expected (sinceReport ls ++ [x]) (ls ++ [x]) else []] := by
  rw [irun_snoc, process_eq]
  obtain ⟨h1, h2⟩ := holds_run ls
  split
  · exact congrArg (fun f => (IState.init.run ls).2 ++ [f])
      (fields_expected (s := ⟨_, _⟩) (h1.inc x) (h2.inc x))
  · rfl

/-- C87: every log gets one answer. -/
theorem C87_all (ls : List (Bool × ILog)) : (IState.init.run ls).2.length = ls.length := by
  induction ls using List.reverseRecOn with
  | nil => rfl
  | append_singleton ls x ih => rw [irun_snoc]; simp [ih]

/-- The value of the field of this name in the fields added to a log. -/
def field (name : String) (fs : List (String × Nat)) : Nat := ((fs.find? fun f => f.1 == name).map (·.2)).getD 0

theorem field_expected (recent all : List (Bool × ILog)) (c : String × (Nat → Bool)) (hc : c ∈ categories) :
    field (c.1 ++ "_logs_count") (expected recent all) = count c.2 recent % 2 ^ 32 ∧
    field (c.1 ++ "_logs_total_count") (expected recent all) = count c.2 all % 2 ^ 32 := by
  simp only [categories, List.mem_cons, List.not_mem_nil, or_false] at hc
  rcases hc with rfl | rfl | rfl | rfl | rfl | rfl | rfl | rfl <;>
    exact ⟨rfl, rfl⟩

/-- C87: nothing is counted twice or lost between the reports: for each category, as long as fewer than 2^32 logs were seen, the reported
counts add up to the logs of that category up to the last report. -/
theorem C87_sum (ls : List (Bool × ILog)) (hlen : ls.length < 2 ^ 32) (c : String × (Nat → Bool)) (hc : c ∈ categories) :
    ((IState.init.run ls).2.map (field (c.1 ++ "_logs_count"))).sum + count c.2 (sinceReport ls) = count c.2 ls := by
  induction ls using List.reverseRecOn with
  | nil => rfl
  | append_singleton ls x ih =>
    rw [List.length_append, List.length_singleton] at hlen
    have ih := ih (by omega)
    have hle : count c.2 (sinceReport ls ++ [x]) < 2 ^ 32 := by
      have h1 : count c.2 (sinceReport ls ++ [x]) ≤ (sinceReport ls ++ [x]).length := List.countP_le_length
      have h2 : (sinceReport ls).length ≤ ls.length := by
        unfold sinceReport
        rw [List.length_reverse]
        exact Nat.le_trans (List.takeWhile_sublist _).length_le (by simp)
      rw [List.length_append, List.length_singleton] at h1
      omega
    rw [C87_counts, List.map_append, List.sum_append, sinceReport_snoc, count_snoc]
    split
    · have := (field_expected (sinceReport ls ++ [x]) (ls ++ [x]) c hc).1
      simp only [List.map_cons, List.map_nil, List.sum_cons, List.sum_nil, Nat.add_zero]
      rw [this, Nat.mod_eq_of_lt hle, count_snoc]
      have h0 : count c.2 [] = 0 := rfl
      rw [h0]
      omega
    · have : field (c.1 ++ "_logs_count") [] = 0 := rfl
      simp only [List.map_cons, List.map_nil, List.sum_cons, List.sum_nil, this]
      rw [count_snoc]
      omega

/-- Three logs, a report, one more of a type without a counter of its own, a report. -/
example :
    let ls := [(true, ⟨0, some "a"⟩), (true, ⟨0, some ""⟩), (true, ⟨8, none⟩), (true, ⟨3, some ""⟩), (true, ⟨7, some "u"⟩),
      (false, ⟨3, some ""⟩), (true, ⟨3, some ""⟩)]
    (IState.init.run ls).2.map (fun f => (field "_logs_count" f, field "_normal_logs_count" f, field "_resource_logs_total_count" f)) =
      [(0, 0, 0), (0, 0, 0), (0, 0, 0), (4, 2, 1), (0, 0, 0), (0, 0, 0), (3, 0, 3)] := by
  decide +kernel

end Verif.Report
