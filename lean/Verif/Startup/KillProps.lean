import Verif.Startup.Kill

/-
C23: a killed client stays silent.
-/
namespace Verif.Startup

variable (hash : Nat → Nat)

def ApiEv.isLoop : ApiEv → Bool
  | .loop .. => true
  | _ => false

theorem Api.silent (es : List ApiEv) (h : ∀ e ∈ es, e.isLoop = true) :
    ∀ a : Api, a.killed = true → a.attempts hash es = 0 ∧ (a.run hash es) = a := by
  induction es with
  | nil => intro a _; exact ⟨rfl, rfl⟩
  | cons e es ih =>
    intro a ha
    cases e with
    | start => exact absurd (h _ List.mem_cons_self) (by simp [ApiEv.isLoop])
    | loop now r d w =>
      have := ih (fun e he => h e (by simp [he])) a ha
      simp [Api.attempts, Api.run, Api.step, ha, this.1, this.2]

/-- C23 (this process): after the server rejected the API key, the process makes no connection attempt
any more — whether or not the kill file could be written. -/
theorem C23_rejected_process_silent (a : Api) (now dur : Int) (w : Wr) (es : List ApiEv)
    (h : ∀ e ∈ es, e.isLoop = true) :
    (a.step hash (.loop now true dur w)).1.attempts hash es = 0 := by
  refine (Api.silent hash es h _ ?_).1
  simp only [Api.step]
  split
  · assumption
  · rfl

/-- Events of processes that use the key `key` and start before the time `till` with a readable kill
file. -/
def ApiEv.Within (key : Nat) (till : Int) : ApiEv → Prop
  | .start k now _ rd _ _ => k = key ∧ now < till ∧ rd = true
  | .loop .. => True

theorem Api.silent_within (key : Nat) (till : Int) (es : List ApiEv) (h : ∀ e ∈ es, e.Within key till) :
    ∀ a : Api, a.killed = true → a.file = some (some ⟨hash key, till⟩) → a.attempts hash es = 0 := by
  induction es with
  | nil => intro a _ _; rfl
  | cons e es ih =>
    intro a ha hf
    have ih' := ih (fun e he => h e (by simp [he]))
    cases e with
    | loop now r d w => simp [Api.attempts, Api.step, ha, ih' a ha hf]
    | start k now g rd rm w =>
      obtain ⟨rfl, hnow, rfl⟩ := h _ List.mem_cons_self
      have hstep : (a.step hash (.start k now g true rm w)).1 = { a with key := k, killed := true } := by
        simp only [Api.step, Api.start, if_true, hf, Option.getD_some]
        have : till > now := hnow
        simp [this]
      simp only [Api.attempts, hstep]
      have := ih' { a with key := k, killed := true } rfl hf
      rw [this]
      simp [Api.step]

/-- C23 (later processes): after the server rejected the key at `now` and the kill file was written for
the period `dur`, no connection is attempted — in this process and in every later process with the same
key that starts before `now + dur`. -/
theorem C23_rejected_later_silent (a : Api) (now dur : Int) (es : List ApiEv) (ha : a.killed = false)
    (h : ∀ e ∈ es, e.Within a.key (now + dur)) :
    (a.step hash (.loop now true dur .ok)).1.attempts hash es = 0 := by
  refine Api.silent_within hash a.key (now + dur) es h _ ?_ ?_ <;> simp [Api.step, ha, Api.writeKill]

/-- C23 (kill switch): a process that starts without a kill file and with a kill period configured makes
no connection attempt, and neither does any later process with the same key within the period. -/
theorem C23_kill_switch (a : Api) (key : Nat) (now dur : Int) (rd rm : Bool) (es : List ApiEv)
    (hf : a.file = none) (hd : dur ≠ 0) (h : ∀ e ∈ es, e.Within key (now + dur)) :
    (a.step hash (.start key now dur rd rm .ok)).1.attempts hash es = 0 := by
  have : (a.step hash (.start key now dur rd rm .ok)).1 = ⟨some (some ⟨hash key, now + dur⟩), key, true⟩ := by
    cases rd <;> simp [Api.step, Api.start, hf, hd, Api.writeKill]
  rw [this]
  exact Api.silent_within hash key (now + dur) es h _ rfl rfl

/-- C23 (recovery): a process that starts with a different key (of different hash) or after the period
has passed removes the kill file and connects at its first loop. -/
theorem C23_connects_again (a : Api) (k : KillFile) (key : Nat) (now g now' d : Int) (w w' : Wr) (r : Bool)
    (hf : a.file = some (some k)) (h : k.till ≤ now ∨ hash key ≠ k.hash) :
    let b := (a.step hash (.start key now g true true w)).1
    b.file = none ∧ (b.step hash (.loop now' r d w')).2 = true := by
  have hc : ¬ (k.till > now && hash key == k.hash) = true := by
    rcases h with h | h
    · have : ¬ k.till > now := by omega
      simp [this]
    · simp [h]
  have hb : (a.step hash (.start key now g true true w)).1 = { a with key := key, killed := false, file := none } := by
    simp only [Api.step, Api.start, if_true, hf, Option.getD_some]
    rw [if_neg hc]
  intro b
  have : b = { a with key := key, killed := false, file := none } := hb
  rw [this]
  refine ⟨rfl, ?_⟩
  simp only [Api.step]
  cases r <;> rfl

/-- Rejected at time 10 for 100: silent in this process and in one started at 50, connecting in one
started at 110. -/
example :
    let a : Api := ⟨none, 7, false⟩
    let l : ApiEv := .loop 60 false 100 .ok
    a.attempts id [.loop 10 true 100 .ok, l, l, .start 7 50 0 true true .ok, l, l] = 1 ∧
    a.attempts id [.loop 10 true 100 .ok, .start 7 110 0 true true .ok, l, l] = 3 ∧
    a.attempts id [.loop 10 true 100 .ok, .start 8 50 0 true true .ok, l, l] = 3 ∧
    (a.step id (.start 7 0 100 true true .ok)).1.attempts id [l, .start 7 99 0 true true .ok, l] = 0 := by
  decide

/-- Why "same key" is needed: a process with another key removes the kill file, after which the first
key connects again within its kill period. -/
theorem C23_other_key_lifts_kill :
    let a : Api := ⟨none, 7, false⟩
    let l : ApiEv := .loop 60 false 100 .ok
    a.attempts id [.loop 10 true 100 .ok, .start 8 20 0 true true .ok, .start 7 50 0 true true .ok, l] = 2 := by
  decide

/-- C23: when the kill file cannot be written, the rejected process is silent all the same and the file is the one of before. -/
theorem C23_unwritten (a : Api) (now dur : Int) (ha : a.killed = false) :
    (a.step hash (.loop now true dur .fail)).1 = ⟨a.file, a.key, true⟩ := by
  simp [Api.step, ha, Api.writeKill]

/-- C23: a torn write leaves a file that cannot be read.  A later process without a kill period connects and leaves it there; one with a
kill period replaces it by its own. -/
theorem C23_torn (a : Api) (now dur : Int) (ha : a.killed = false) (key : Nat) (now' generic : Int) (rd rm : Bool) (hg : generic ≠ 0) :
    let b := (a.step hash (.loop now true dur .torn)).1
    b = ⟨some none, a.key, true⟩ ∧
    (∀ w, (b.step hash (.start key now' 0 rd rm w)).1 = ⟨some none, key, false⟩) ∧
    (b.step hash (.start key now' generic rd rm .ok)).1 = ⟨some (some ⟨hash key, now' + generic⟩), key, true⟩ := by
  cases rd <;> simp [Api.step, Api.start, ha, hg, Api.writeKill]

/-- A process for `C23_unwritten` and `C23_torn`: the one after the torn write connects. -/
example :
    let a : Api := ⟨none, 7, false⟩
    let l : ApiEv := .loop 60 false 100 .ok
    a.killed = false ∧ (100 : Int) ≠ 0 ∧ a.attempts id [.loop 10 true 100 .torn, l, .start 7 50 0 true true .ok, l] = 2 ∧
    a.attempts id [.loop 10 true 100 .torn, l, .start 7 50 100 true true .ok, l] = 1 := by decide

/-- C23: a kill file that cannot be read does not keep a process without a kill period from connecting, and stays. -/
theorem C23_unread (a : Api) (key : Nat) (now now' d : Int) (rm r : Bool) (w w' : Wr) :
    let b := (a.step hash (.start key now 0 false rm w)).1
    b = ⟨a.file, key, false⟩ ∧ (b.step hash (.loop now' r d w')).2 = true := by
  cases r <;> simp [Api.step, Api.start]

/-- C23: a kill file that does not apply any more but cannot be removed stays; the process connects all the same. -/
theorem C23_not_removed (a : Api) (k : KillFile) (key : Nat) (now g now' d : Int) (w w' : Wr) (r : Bool)
    (hf : a.file = some (some k)) (h : k.till ≤ now ∨ hash key ≠ k.hash) :
    let b := (a.step hash (.start key now g true false w)).1
    b = ⟨some (some k), key, false⟩ ∧ (b.step hash (.loop now' r d w')).2 = true := by
  have hc : ¬ (k.till > now && hash key == k.hash) = true := by
    rcases h with h | h
    · have : ¬ k.till > now := by omega
      simp [this]
    · simp [h]
  have hb : (a.step hash (.start key now g true false w)).1 = ⟨some (some k), key, false⟩ := by
    simp only [Api.step, Api.start, hf, if_true, Option.getD_some]
    rw [if_neg hc]
    simp
  intro b
  refine ⟨hb, ?_⟩
  show (((a.step hash (.start key now g true false w)).1).step hash (.loop now' r d w')).2 = true
  rw [hb]
  cases r <;> simp [Api.step]

/-- Files for `C23_unread` and `C23_not_removed`. -/
example :
    let a : Api := ⟨some (some ⟨7, 110⟩), 7, false⟩
    (⟨7, 110⟩ : KillFile).till ≤ 120 ∧ a.attempts id [.start 7 120 0 true false .ok, .loop 130 false 9 .ok] = 1 ∧
    a.attempts id [.start 7 50 0 false true .ok, .loop 60 false 9 .ok] = 1 ∧ a.attempts id [.start 7 50 0 true true .ok, .loop 60 false 9 .ok] = 0 := by decide

end Verif.Startup
