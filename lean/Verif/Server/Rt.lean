/-
The size of the worker pool (bd-rt/src/lib.rs).

`num_cpus` reads the environment variable `NUM_CPUS`.  If it parses as a number the function returns `max(1, num_cpus as usize)`
(bd-rt/src/lib.rs:44) — but `num_cpus` is not a local variable there: it is the function itself, and the cast gives the address of its
code.  The number that was parsed is used for a warning only.  The address is an input of the model.
-/
namespace Verif.Server

/-- What `std::env::var("NUM_CPUS")` and `parse::<f64>` give (bd-rt/src/lib.rs:36-37): unset, not a number, or a number with whether it
is normal.  The value is in millionths. -/
inductive Hint where
  | unset
  | nonNumeric
  | number (value : Int) (normal : Bool)
  deriving DecidableEq, Repr

/-- `num_cpus` (bd-rt/src/lib.rs:31-59).  `addr` is the address of the function, `host` what `available_parallelism` gives (`none`: it
fails). -/
def numCpus (addr : Nat) (host : Option Nat) (h : Hint) : Nat :=
  match h with
  | .number _ _ => max 1 addr
  | .nonNumeric | .unset =>
    let n := host.getD 1
    min (max n 1) 4096

/-- `new_runtime` (bd-rt/src/lib.rs:75-91): `none` is the single-threaded runtime, otherwise the number of workers. -/
def newRuntime (cpus : Nat) : Option Nat := if cpus = 1 then none else some cpus

/-- **C93 (range).** There is always at least one worker. -/
theorem C93_range (addr : Nat) (host : Option Nat) (h : Hint) : 1 ≤ numCpus addr host h := by
  unfold numCpus
  cases h <;> simp only <;> omega

/-- **C93 (pool), partial.** Without a numeric `NUM_CPUS` the pool has as many workers as the host has processors, at least one (also
when the host cannot be asked) and at most 4096; with one processor the single-threaded runtime is used. Missing, because false: with a
numeric `NUM_CPUS`, see `C93_hint_violated`. -/
theorem C93_pool_partial (addr : Nat) (host : Option Nat) (h : Hint) (hh : h = .unset ∨ h = .nonNumeric) :
    numCpus addr host h ≤ 4096 ∧
    (∀ n, host = some n → 1 ≤ n → n ≤ 4096 → numCpus addr host h = n) ∧
    (host = none → numCpus addr host h = 1) ∧
    (newRuntime (numCpus addr host h) = none ↔ numCpus addr host h = 1) := by
  refine ⟨?_, ?_, ?_, ?_⟩
  · rcases hh with rfl | rfl <;> simp only [numCpus] <;> omega
  · intro n hn h1 h2
    subst hn
    rcases hh with rfl | rfl <;> simp only [numCpus, Option.getD_some] <;> omega
  · intro hn; subst hn
    rcases hh with rfl | rfl <;> rfl
  · unfold newRuntime; split <;> simp_all

/-- **C93 violated.** With a numeric `NUM_CPUS` the number of workers is the address of a function: it does not depend on the variable,
and it is above every reasonable bound as soon as the code is loaded there. -/
theorem C93_hint_violated (addr : Nat) (ha : 4096 < addr) (host : Option Nat) :
    (∀ v w n m, numCpus addr host (.number v n) = numCpus addr host (.number w m)) ∧
    ∀ v n, newRuntime (numCpus addr host (.number v n)) = some addr := by
  refine ⟨fun _ _ _ _ => rfl, fun v n => ?_⟩
  have : max 1 addr = addr := by omega
  simp only [numCpus, newRuntime, this]
  rw [if_neg (by omega)]

example : numCpus 94298137460736 (some 8) (.number 2000000 true) = 94298137460736 ∧ numCpus 94298137460736 (some 8) .unset = 8 := by
  decide

end Verif.Server
