import Verif.Store.Props
/-
C79: the device identifier is stable.
-/
namespace Verif.Store

theorem set_str_same (d : Disk) (k : String) (x : List Nat) (w : Wr) (hw : w ≠ .lost) :
    set .str d k x w k = some (b64e (encStr x)) := by
  cases w with
  | lost => exact absurd rfl hw
  | ok => simp only [set, put_same]; rfl
  | kept => simp only [set, put_same]; rfl

/-- Identifiers returned by one object in one process agree, and those of the current process are
the cached one. -/
def Told (s : Dev) (outs : List (Nat × Nat × List Nat)) : Prop :=
  (∀ o ∈ outs, o.1 < s.proc ∨ (o.1 = s.proc ∧ s.cache o.2.1 = some o.2.2 ∧ s.pend o.2.1 = false)) ∧
  (∀ a ∈ outs, ∀ b ∈ outs, a.1 = b.1 → a.2.1 = b.2.1 → a.2.2 = b.2.2)

/-- The cache of a step: the process is over, or every cached identifier of an object that is not
about to write is kept, and what is returned is cached. -/
theorem step_cache (utf8 : List Nat → Bool) (mem : Nat) (uuid : Nat → List Nat) (s : Dev)
    (o : DevOp) :
    ((s.step utf8 mem uuid o).1.proc = s.proc + 1 ∧ (s.step utf8 mem uuid o).2 = []) ∨
    ((s.step utf8 mem uuid o).1.proc = s.proc ∧
      (∀ i x, s.cache i = some x → s.pend i = false →
        (s.step utf8 mem uuid o).1.cache i = some x ∧ (s.step utf8 mem uuid o).1.pend i = false) ∧
      (∀ q ∈ (s.step utf8 mem uuid o).2, q.1 = s.proc ∧
        (s.step utf8 mem uuid o).1.cache q.2.1 = some q.2.2 ∧
        (s.step utf8 mem uuid o).1.pend q.2.1 = false)) := by
  cases o with
  | restart => left; exact ⟨rfl, rfl⟩
  | other op =>
    right
    refine ⟨rfl, fun i x h1 h2 => ⟨h1, h2⟩, ?_⟩
    intro q hq
    simp [Dev.step] at hq
  | make j w =>
    right
    simp only [Dev.step]
    split
    · rename_i hj
      refine ⟨rfl, ?_, ?_⟩
      · intro i x hc hp
        have : i ≠ j := fun e => by subst e; simp [hp] at hj
        simp [this, hc, hp]
      · intro q hq
        simp only [List.mem_singleton] at hq
        subst hq
        simp
    · refine ⟨rfl, fun i x h1 h2 => ⟨h1, h2⟩, ?_⟩
      intro q hq
      simp at hq
  | look j rf df =>
    simp only [Dev.step]
    split
    · right
      refine ⟨rfl, fun i x h1 h2 => ⟨h1, h2⟩, ?_⟩
      intro q hq
      simp at hq
    · rename_i hpj
      split
      · rename_i y hy
        right
        refine ⟨rfl, fun i x h1 h2 => ⟨h1, h2⟩, ?_⟩
        intro q hq
        simp only [List.mem_singleton] at hq
        subst hq
        exact ⟨rfl, hy, by simpa using hpj⟩
      · rename_i hj
        split
        · left; exact ⟨rfl, rfl⟩
        · right
          refine ⟨rfl, ?_, ?_⟩
          · intro i x hc hp
            have : i ≠ j := fun e => by subst e; simp [hc] at hj
            simp [this, hc, hp]
          · intro q hq
            simp only [List.mem_singleton] at hq
            subst hq
            simpa using hpj
        · right
          refine ⟨rfl, ?_, ?_⟩
          · intro i x hc hp
            have : i ≠ j := fun e => by subst e; simp [hc] at hj
            simp [this, hc, hp]
          · intro q hq
            simp at hq

theorem told_step (utf8 : List Nat → Bool) (mem : Nat) (uuid : Nat → List Nat) (s : Dev)
    (o : DevOp) (outs : List (Nat × Nat × List Nat)) (h : Told s outs) :
    Told (s.step utf8 mem uuid o).1 (outs ++ (s.step utf8 mem uuid o).2) := by
  obtain ⟨h1, h2⟩ := h
  rcases step_cache utf8 mem uuid s o with ⟨e1, e2⟩ | ⟨e1, e2, e3⟩
  · rw [e2, List.append_nil]
    refine ⟨?_, h2⟩
    intro q hq
    left
    rcases h1 q hq with h | ⟨h, _⟩ <;> omega
  · have hnow : ∀ q ∈ outs ++ (s.step utf8 mem uuid o).2,
        q.1 < (s.step utf8 mem uuid o).1.proc ∨ (q.1 = (s.step utf8 mem uuid o).1.proc ∧
          (s.step utf8 mem uuid o).1.cache q.2.1 = some q.2.2 ∧
          (s.step utf8 mem uuid o).1.pend q.2.1 = false) := by
      intro q hq
      rw [e1]
      rcases List.mem_append.mp hq with hq | hq
      · rcases h1 q hq with h | ⟨ha, hb, hc⟩
        · exact Or.inl h
        · exact Or.inr ⟨ha, e2 _ _ hb hc⟩
      · exact Or.inr (e3 q hq)
    refine ⟨hnow, ?_⟩
    intro a ha b hb hab hij
    rcases hnow a ha with la | ⟨pa, ca, _⟩
    · rw [e1] at la
      have ma : a ∈ outs := by
        rcases List.mem_append.mp ha with h | h
        · exact h
        · have := (e3 a h).1; omega
      have mb : b ∈ outs := by
        rcases List.mem_append.mp hb with h | h
        · exact h
        · have := (e3 b h).1; omega
      exact h2 a ma b mb hab hij
    · rcases hnow b hb with lb | ⟨pb, cb, _⟩
      · omega
      · rw [hij, cb] at ca
        simpa using ca.symm

theorem told_run (utf8 : List Nat → Bool) (mem : Nat) (uuid : Nat → List Nat) :
    ∀ (os : List DevOp) (s : Dev) (outs : List (Nat × Nat × List Nat)), Told s outs →
      Told (s.run utf8 mem uuid os).1 (outs ++ (s.run utf8 mem uuid os).2)
  | [], s, outs, h => by simpa [Dev.run] using h
  | o :: os, s, outs, h => by
    have := told_run utf8 mem uuid os _ _ (told_step utf8 mem uuid s o outs h)
    simp only [Dev.run]
    rwa [← List.append_assoc]

/-- **C79** within a process every call on a `Device` returns the same identifier, whatever the
platform does. -/
theorem C79_process (utf8 : List Nat → Bool) (mem : Nat) (uuid : Nat → List Nat) (d : Disk)
    (os : List DevOp) (p i : Nat) (x y : List Nat)
    (hx : (p, i, x) ∈ ((Dev.start d).run utf8 mem uuid os).2)
    (hy : (p, i, y) ∈ ((Dev.start d).run utf8 mem uuid os).2) : x = y := by
  have := told_run utf8 mem uuid os (Dev.start d) [] ⟨by simp, by simp⟩
  rw [List.nil_append] at this
  exact this.2 _ hx _ hy rfl rfl

/-- The platform serves the reads and writes of the identifier, only object `i` exists, and the
other users of the store use other keys. -/
def Served (i : Nat) : DevOp → Prop
  | .look j rf _ => j = i ∧ rf = false
  | .make j w => j = i ∧ w ≠ .lost
  | .restart => True
  | .other op => op.key ≠ devKey

/-- Nothing is stored and nothing is cached, or everything agrees on `x`. -/
def Agreed (utf8 : List Nat → Bool) (mem : Nat) (i : Nat) (s : Dev) (x : List Nat) : Prop :=
  StrOk utf8 mem x ∧ s.disk devKey = some (b64e (encStr x)) ∧ s.pend i = false ∧
    (s.cache i = none ∨ s.cache i = some x)

theorem agreed_step {utf8 : List Nat → Bool} {mem : Nat} {uuid : Nat → List Nat} {i : Nat}
    {s : Dev} {x : List Nat} (h : Agreed utf8 mem i s x) {o : DevOp} (ho : Served i o) :
    Agreed utf8 mem i (s.step utf8 mem uuid o).1 x ∧
      ∀ q ∈ (s.step utf8 mem uuid o).2, q.2.2 = x := by
  obtain ⟨hx, hd, hp, hc⟩ := h
  have hg : ∀ df, get utf8 mem .str s.disk devKey false df = (s.disk, .val (some x)) := by
    intro df
    have := getInternal_of_text (t := .str) (v := x) hx (d := s.disk) (k := devKey) hd
    simp only [get, this]
  cases o with
  | restart => exact ⟨⟨hx, hd, rfl, Or.inl rfl⟩, by simp [Dev.step]⟩
  | other op =>
    refine ⟨⟨hx, ?_, hp, hc⟩, by simp [Dev.step]⟩
    simp only [Dev.step]
    rw [C78_frame utf8 mem s.disk op devKey ho, hd]
  | make j w =>
    obtain ⟨rfl, _⟩ := ho
    simp only [Dev.step, hp, Bool.false_eq_true, if_false]
    exact ⟨⟨hx, hd, hp, hc⟩, by simp⟩
  | look j rf df =>
    obtain ⟨rfl, rfl⟩ := ho
    simp only [Dev.step, hp, Bool.false_eq_true, if_false]
    rcases hc with hc | hc
    · rw [hc, hg]
      simp only
      exact ⟨⟨hx, hd, hp, Or.inr (by simp)⟩, by simp⟩
    · rw [hc]
      simp only
      exact ⟨⟨hx, hd, hp, Or.inr hc⟩, by simp⟩

theorem agreed_run {utf8 : List Nat → Bool} {mem : Nat} {uuid : Nat → List Nat} {i : Nat}
    {x : List Nat} : ∀ (os : List DevOp) (s : Dev), Agreed utf8 mem i s x →
      (∀ o ∈ os, Served i o) → ∀ q ∈ (s.run utf8 mem uuid os).2, q.2.2 = x
  | [], s, _, _ => by simp [Dev.run]
  | o :: os, s, h, ho => by
    intro q hq
    have hs := agreed_step (uuid := uuid) h (ho o (by simp))
    simp only [Dev.run, List.mem_append] at hq
    rcases hq with hq | hq
    · exact hs.2 q hq
    · exact agreed_run os _ hs.1 (fun o' h' => ho o' (by simp [h'])) q hq

/-- Nothing was told yet. -/
def Blank (i : Nat) (s : Dev) : Prop := s.disk devKey = none ∧ s.cache i = none

theorem blank_step {utf8 : List Nat → Bool} {mem : Nat} {uuid : Nat → List Nat} {i : Nat}
    (hu : ∀ n, StrOk utf8 mem (uuid n)) {s : Dev} (h : Blank i s) {o : DevOp} (ho : Served i o) :
    (Blank i (s.step utf8 mem uuid o).1 ∧ (s.step utf8 mem uuid o).2 = []) ∨
    ∃ x, Agreed utf8 mem i (s.step utf8 mem uuid o).1 x ∧
      ∀ q ∈ (s.step utf8 mem uuid o).2, q.2.2 = x := by
  obtain ⟨hd, hc⟩ := h
  cases o with
  | restart => left; exact ⟨⟨hd, rfl⟩, rfl⟩
  | other op =>
    left
    refine ⟨⟨?_, hc⟩, rfl⟩
    simp only [Dev.step]
    rw [C78_frame utf8 mem s.disk op devKey ho, hd]
  | make j w =>
    obtain ⟨rfl, hw⟩ := ho
    by_cases hp : s.pend j = true
    · right
      refine ⟨uuid s.made, ?_⟩
      simp only [Dev.step, hp, if_true]
      refine ⟨⟨hu _, ?_, by simp, Or.inr (by simp)⟩, by simp⟩
      exact set_str_same _ _ _ _ hw
    · left
      simp only [Dev.step, hp]
      exact ⟨⟨hd, hc⟩, by simp⟩
  | look j rf df =>
    obtain ⟨rfl, rfl⟩ := ho
    left
    simp only [Dev.step]
    split
    · exact ⟨⟨hd, hc⟩, rfl⟩
    · rw [hc, C78_absent utf8 mem .str s.disk devKey hd df]
      exact ⟨⟨hd, hc⟩, rfl⟩

theorem blank_run {utf8 : List Nat → Bool} {mem : Nat} {uuid : Nat → List Nat} {i : Nat}
    (hu : ∀ n, StrOk utf8 mem (uuid n)) : ∀ (os : List DevOp) (s : Dev), Blank i s →
      (∀ o ∈ os, Served i o) → ∃ x, ∀ q ∈ (s.run utf8 mem uuid os).2, q.2.2 = x
  | [], s, _, _ => ⟨[], by simp [Dev.run]⟩
  | o :: os, s, h, ho => by
    have hos : ∀ o' ∈ os, Served i o' := fun o' h' => ho o' (by simp [h'])
    rcases blank_step hu h (ho o (by simp)) with ⟨h1, h2⟩ | ⟨x, h1, h2⟩
    · obtain ⟨x, hx⟩ := blank_run hu os _ h1 hos
      refine ⟨x, ?_⟩
      intro q hq
      simp only [Dev.run, h2, List.nil_append] at hq
      exact hx q hq
    · refine ⟨x, ?_⟩
      intro q hq
      simp only [Dev.run, List.mem_append] at hq
      rcases hq with hq | hq
      · exact h2 q hq
      · exact agreed_run os _ h1 hos q hq

/-- **C79 (partial)** on a device whose storage starts empty, every call in every process returns
the same identifier, if the platform serves the reads and the writes of the identifier and each
process has one `Device`.  Missing: a refused read, a lost write and two objects, see the
`_violated` theorems. -/
theorem C79_stable_partial (utf8 : List Nat → Bool) (mem : Nat) (uuid : Nat → List Nat)
    (hu : ∀ n, StrOk utf8 mem (uuid n)) (d : Disk) (hd : d devKey = none) (i : Nat)
    (os : List DevOp) (ho : ∀ o ∈ os, Served i o) :
    ∃ x, ∀ q ∈ ((Dev.start d).run utf8 mem uuid os).2, q.2.2 = x :=
  blank_run hu os _ ⟨hd, rfl⟩ ho

/-- **C79** on a device that has an identifier, every call in every process returns it, under the
same conditions. -/
theorem C79_stored_partial (utf8 : List Nat → Bool) (mem : Nat) (uuid : Nat → List Nat)
    (d : Disk) (x : List Nat) (hx : StrOk utf8 mem x) (i : Nat)
    (os : List DevOp) (ho : ∀ o ∈ os, Served i o) :
    ∀ q ∈ ((Dev.start (set .str d devKey x .ok)).run utf8 mem uuid os).2, q.2.2 = x :=
  agreed_run os _ ⟨hx, set_str_same d devKey x .ok (by decide), rfl, Or.inl rfl⟩ ho

/-- Identifiers for the examples: one character. -/
def exUuid (n : Nat) : List Nat := [97 + n]

/-- **C79 violated**: a write that is lost gives the next process another identifier. -/
theorem C79_lost_write_violated :
    (((Dev.start fun _ => none).run (fun _ => true) 100 exUuid
      [.look 0 false false, .make 0 .lost, .restart, .look 0 false false, .make 0 .ok]).2.map
        (·.2.2)) = [[97], [98]] := by decide +kernel

/-- **C79 violated**: one refused read replaces the stored identifier. -/
theorem C79_refused_read_violated :
    (((Dev.start fun _ => none).run (fun _ => true) 100 exUuid
      [.look 0 false false, .make 0 .ok, .restart, .look 0 true false, .make 0 .ok,
        .restart, .look 0 false false]).2.map (·.2.2)) = [[97], [98], [98]] := by decide +kernel

/-- **C79 violated**: two `Device` objects of one process that start together have different
identifiers. -/
theorem C79_two_objects_violated :
    (((Dev.start fun _ => none).run (fun _ => true) 100 exUuid
      [.look 0 false false, .look 1 false false, .make 0 .ok, .make 1 .ok]).2.map (·.2.2))
      = [[97], [98]] := by decide +kernel

example : (((Dev.start fun _ => none).run (fun _ => true) 100 exUuid
      [.look 0 false false, .make 0 .ok, .other (.set .str "k" [1] .ok), .look 0 false false,
        .restart, .look 0 false false]).2.map (·.2.2)) = [[97], [97], [97]] := by decide +kernel

end Verif.Store
