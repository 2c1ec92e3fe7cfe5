import Verif.Tasks.Switch

/-
The switches of the processing pipeline (C112) and the way of a flush request to the uploader (C113).
-/
namespace Verif.Switch

open Verif.Upload (BufId TM TEv)

/-! ### What an observer of the events knows -/

/-- The value of the workflows flag, from the runtime updates only. -/
def lastW (d : Bool) : List Ev → Bool
  | [] => d
  | .runtime w _ :: es => lastW w es
  | _ :: es => lastW d es

/-- The value of the filters flag. -/
def lastF (d : Bool) : List Ev → Bool
  | [] => d
  | .runtime _ f :: es => lastF f es
  | _ :: es => lastF d es

/-- The last configuration. -/
def lastCfg (d : Option Nat) : List Ev → Option Nat
  | [] => d
  | .config c :: es => lastCfg (some c) es
  | _ :: es => lastCfg d es

/-- The logs. -/
def logsOf : List Ev → List Nat
  | [] => []
  | .log n :: es => n :: logsOf es
  | _ :: es => logsOf es

theorem sys_run_append (es es' : List Ev) : ∀ s : Sys, s.run (es ++ es') = (((s.run es).1.run es').1, (s.run es).2 ++ ((s.run es).1.run es').2) := by
  induction es with
  | nil => intro s; simp [Sys.run]
  | cons e es ih => intro s; simp [Sys.run, ih, List.append_assoc]

/-! ### The invariant of the switches -/

structure SInv (s : Sys) : Prop where
  eng : ∀ l, s.line = some l → l.engine.isSome = true → s.wf.value = true ∨ l.seenW ≠ s.wf.version
  filt : ∀ l, s.line = some l → l.filterOn = s.fc.value ∨ l.seenF ≠ s.fc.version
  leW : ∀ l, s.line = some l → l.seenW ≤ s.wf.version
  leF : ∀ l, s.line = some l → l.seenF ≤ s.fc.version
  cfg : ∀ l e, s.line = some l → l.engine = some e → e.cfg = l.cfg
  rx : ∀ l, s.line = some l → l.engine.isSome = true → l.rx.isSome = true

theorem SInv.init (w f : Bool) : SInv (Sys.init w f) :=
  ⟨nofun, nofun, nofun, nofun, nofun, nofun⟩

theorem set_cases (w : Watch) (v : Bool) : (w.set v = w ∧ w.value = v) ∨ (w.set v = ⟨v, w.version + 1⟩ ∧ w.value ≠ v) := by
  unfold Watch.set
  split
  · exact Or.inl ⟨rfl, by assumption⟩
  · exact Or.inr ⟨rfl, by assumption⟩

theorem set_value (w : Watch) (v : Bool) : (w.set v).value = v := by
  rcases set_cases w v with ⟨h, e⟩ | ⟨h, _⟩
  · rw [h, e]
  · rw [h]

/-- Steps that do not touch the pipeline or the flags. -/
theorem SInv.same {s s' : Sys} (h : SInv s) (hw : s'.wf = s.wf) (hf : s'.fc = s.fc) (hl : s'.line = s.line) : SInv s' := by
  obtain ⟨a, b, c, d, e, g⟩ := h
  constructor <;> rw [hl] <;> first | rw [hw] | rw [hf] | skip
  all_goals assumption

theorem SInv.step {s : Sys} (h : SInv s) (e : Ev) : SInv (s.step e).1 := by
  obtain ⟨a, b, c, d, g, k⟩ := id h
  cases e with
  | runtime w f =>
    constructor
    · intro l hl he
      have hl : s.line = some l := hl
      rcases set_cases s.wf w with ⟨x, y⟩ | ⟨x, y⟩ <;> simp only [Sys.step, x]
      · exact a l hl he
      · exact Or.inr (by have := c l hl; omega)
    · intro l hl
      have hl : s.line = some l := hl
      rcases set_cases s.fc f with ⟨x, y⟩ | ⟨x, y⟩ <;> simp only [Sys.step, x]
      · exact b l hl
      · exact Or.inr (by have := d l hl; omega)
    · intro l hl
      have hl : s.line = some l := hl
      have := c l hl
      rcases set_cases s.wf w with ⟨x, y⟩ | ⟨x, y⟩ <;> simp only [Sys.step, x] <;> omega
    · intro l hl
      have hl : s.line = some l := hl
      have := d l hl
      rcases set_cases s.fc f with ⟨x, y⟩ | ⟨x, y⟩ <;> simp only [Sys.step, x] <;> omega
    · exact g
    · exact k
  | config n =>
    simp only [Sys.step]
    cases hl : s.line with
    | none =>
      dsimp only
      constructor
      · intro l hl' he
        cases hl'
        simp only [Line.new] at he ⊢
        split at he
        · rename_i hv; exact Or.inl hv
        · cases he
      · intro l hl'; cases hl'; exact Or.inl rfl
      · intro l hl'; cases hl'; exact Nat.le_refl _
      · intro l hl'; cases hl'; exact Nat.le_refl _
      · intro l e hl' he
        cases hl'
        simp only [Line.new] at he ⊢
        split at he
        · cases he; rfl
        · cases he
      · intro l hl' he
        cases hl'
        simp only [Line.new] at he ⊢
        split at he
        · rename_i hv; simp [hv]
        · cases he
    | some l0 =>
      dsimp only
      have hb := b l0 hl
      have hd := d l0 hl
      have hk := k l0 hl
      unfold Line.update
      constructor <;> dsimp only
      · intro l hl' he
        cases hl'
        split at he
        · rename_i hv; exact Or.inl hv
        · cases he
      · intro l hl'
        cases hl'
        split
        · split <;> exact hb
        · exact hb
      · intro l hl'
        cases hl'
        split
        · split <;> exact Nat.le_refl _
        · exact Nat.le_refl _
      · intro l hl'
        cases hl'
        split
        · split <;> exact hd
        · exact hd
      · intro l e hl' he
        cases hl'
        split at he
        · rename_i hv
          simp only [hv, if_true]
          split at he
          · cases he; rfl
          · cases he; rfl
        · cases he
      · intro l hl' he
        cases hl'
        split at he
        · rename_i hv
          simp only [hv, if_true]
          split at he
          · rename_i x hx; exact hk (by rw [hx]; rfl)
          · rfl
        · cases he
  | log n =>
    simp only [Sys.step]
    split
    · exact h.same rfl rfl rfl
    · exact h
  | approved x bufs =>
    simp only [Sys.step]
    split
    · exact h
    · rename_i l0 hl
      split
      · exact h
      · rename_i e0 he0
        have hk := k l0 hl
        unfold Sys.approve
        split
        · exact h
        · split
          · rename_i q hq
            split
            · constructor
              · intro l hl' he; cases hl'; exact a l0 hl (by rw [he0]; rfl)
              · intro l hl'; cases hl'; exact b l0 hl
              · intro l hl'; cases hl'; exact c l0 hl
              · intro l hl'; cases hl'; exact d l0 hl
              · intro l e hl' he; cases hl'; cases he; exact g l0 e0 hl he0
              · intro l hl' he; cases hl'; rfl
            · constructor
              · intro l hl' he; cases hl'; exact a l0 hl (by rw [he0]; rfl)
              · intro l hl'; cases hl'; exact b l0 hl
              · intro l hl'; cases hl'; exact c l0 hl
              · intro l hl'; cases hl'; exact d l0 hl
              · intro l e hl' he; cases hl'; cases he; exact g l0 e0 hl he0
              · intro l hl' he; cases hl'; exact hk (by rw [he0]; rfl)
          · rename_i hq
            have := hk (by rw [he0]; rfl)
            rw [hq] at this
            cases this
  | pass =>
    simp only [Sys.step]
    split
    · exact h
    · rename_i l0 hl
      unfold Sys.passOn
      split
      · rename_i r q hq
        dsimp only
        split
        · constructor
          · intro l hl' he; cases hl'; exact a l0 hl he
          · intro l hl'; cases hl'; exact b l0 hl
          · intro l hl'; cases hl'; exact c l0 hl
          · intro l hl'; cases hl'; exact d l0 hl
          · intro l e hl' he; cases hl'; exact g l0 e hl he
          · intro l hl' he; cases hl'; rfl
        · constructor
          · intro l hl' he; cases hl'; exact a l0 hl he
          · intro l hl'; cases hl'; exact b l0 hl
          · intro l hl'; cases hl'; exact c l0 hl
          · intro l hl'; cases hl'; exact d l0 hl
          · intro l e hl' he; cases hl'; exact g l0 e hl he
          · intro l hl' he; cases hl'; rfl
      · exact h
  | seeWorkflows =>
    simp only [Sys.step]
    split
    · exact h
    · rename_i l0 hl
      split
      · exact h
      · constructor <;> dsimp only
        · intro l hl' he
          cases hl'
          split at he
          · rename_i hv; exact Or.inl hv
          · cases he
        · intro l hl'; cases hl'; exact b l0 hl
        · intro l hl'; cases hl'; exact Nat.le_refl _
        · intro l hl'; cases hl'; exact d l0 hl
        · intro l e hl' he
          cases hl'
          split at he
          · exact g l0 e hl he
          · cases he
        · intro l hl' he
          cases hl'
          split at he
          · exact k l0 hl he
          · cases he
  | seeFilters =>
    simp only [Sys.step]
    split
    · exact h
    · rename_i l0 hl
      split
      · exact h
      · constructor
        · intro l hl' he; cases hl'; exact a l0 hl he
        · intro l hl'; cases hl'; exact Or.inl rfl
        · intro l hl'; cases hl'; exact c l0 hl
        · intro l hl'; cases hl'; exact Nat.le_refl _
        · intro l e hl' he; cases hl'; exact g l0 e hl he
        · intro l hl' he; cases hl'; exact k l0 hl he
  | idle =>
    simp only [Sys.step]
    split
    · exact h
    · split <;> exact h
  | server bufs =>
    simp only [Sys.step]
    split
    · exact h.same rfl rfl rfl
    · exact h
  | take bad =>
    simp only [Sys.step]
    split
    · exact h
    · exact h.same rfl rfl rfl
  | up e =>
    simp only [Sys.step]
    split
    · exact h.same rfl rfl rfl
    · exact h
  | answer r =>
    simp only [Sys.step]
    split
    · exact h
    · exact h.same rfl rfl rfl
  | stop => exact h.same rfl rfl rfl

theorem SInv.run (es : List Ev) : ∀ {s : Sys}, SInv s → SInv (s.run es).1 := by
  induction es with
  | nil => intro s h; exact h
  | cons e es ih => intro s h; exact ih (h.step e)

/-! ### The flags and the configuration follow the events -/

theorem step_wf (s : Sys) (e : Ev) : (s.step e).1.wf.value = lastW s.wf.value [e] := by
  cases e with
  | runtime w f => simp only [Sys.step, lastW]; exact set_value _ _
  | approved a bufs =>
    simp only [Sys.step, lastW, Sys.approve]
    repeat' split
    all_goals rfl
  | pass =>
    simp only [Sys.step, lastW, Sys.passOn]
    repeat' split
    all_goals rfl
  | _ =>
    simp only [Sys.step, lastW]
    try (repeat' split)
    all_goals rfl

theorem step_fc (s : Sys) (e : Ev) : (s.step e).1.fc.value = lastF s.fc.value [e] := by
  cases e with
  | runtime w f => simp only [Sys.step, lastF]; exact set_value _ _
  | approved a bufs =>
    simp only [Sys.step, lastF, Sys.approve]
    repeat' split
    all_goals rfl
  | pass =>
    simp only [Sys.step, lastF, Sys.passOn]
    repeat' split
    all_goals rfl
  | _ =>
    simp only [Sys.step, lastF]
    try (repeat' split)
    all_goals rfl

theorem step_cfg (s : Sys) (e : Ev) : (s.step e).1.line.map (·.cfg) = lastCfg (s.line.map (·.cfg)) [e] := by
  cases e with
  | config c =>
    simp only [Sys.step, lastCfg]
    split
    · rfl
    · simp only [Line.update, Option.map]
      repeat' split
      all_goals rfl
  | approved a bufs =>
    simp only [Sys.step, lastCfg, Sys.approve]
    split
    · rfl
    · rename_i l hl
      repeat' split
      all_goals first | rfl | (rw [hl]; rfl)
  | pass =>
    simp only [Sys.step, lastCfg, Sys.passOn]
    split
    · rfl
    · rename_i l hl
      repeat' split
      all_goals first | rfl | (rw [hl]; rfl)
  | seeWorkflows =>
    simp only [Sys.step, lastCfg]
    split
    · rfl
    · rename_i l hl
      repeat' split
      all_goals first | rfl | (rw [hl]; rfl)
  | seeFilters =>
    simp only [Sys.step, lastCfg]
    split
    · rfl
    · rename_i l hl
      repeat' split
      all_goals first | rfl | (rw [hl]; rfl)
  | _ =>
    simp only [Sys.step, lastCfg]
    try (repeat' split)
    all_goals rfl

theorem lastW_cons (d : Bool) (e : Ev) (es : List Ev) : lastW d (e :: es) = lastW (lastW d [e]) es := by cases e <;> rfl
theorem lastF_cons (d : Bool) (e : Ev) (es : List Ev) : lastF d (e :: es) = lastF (lastF d [e]) es := by cases e <;> rfl
theorem lastCfg_cons (d : Option Nat) (e : Ev) (es : List Ev) : lastCfg d (e :: es) = lastCfg (lastCfg d [e]) es := by cases e <;> rfl

theorem run_wf (es : List Ev) : ∀ s : Sys, (s.run es).1.wf.value = lastW s.wf.value es := by
  induction es with
  | nil => intro s; rfl
  | cons e es ih => intro s; rw [lastW_cons, ← step_wf]; exact ih _

theorem run_fc (es : List Ev) : ∀ s : Sys, (s.run es).1.fc.value = lastF s.fc.value es := by
  induction es with
  | nil => intro s; rfl
  | cons e es ih => intro s; rw [lastF_cons, ← step_fc]; exact ih _

theorem run_cfg (es : List Ev) : ∀ s : Sys, (s.run es).1.line.map (·.cfg) = lastCfg (s.line.map (·.cfg)) es := by
  induction es with
  | nil => intro s; rfl
  | cons e es ih => intro s; rw [lastCfg_cons, ← step_cfg]; exact ih _

/-! ### C112 -/

/-- Workflows are off and the pipeline knows. -/
def Off (s : Sys) : Prop := s.wf.value = false ∧ ∀ l, s.line = some l → l.engine = none

/-- What may not happen while workflows are off. -/
def Quiet : Out → Prop
  | .log _ _ w => w = none
  | .asked _ => False
  | .overflow _ => False
  | _ => True

theorem Off.step {s : Sys} (h : Off s) (e : Ev) (he : ∀ w f, e = .runtime w f → w = false) : Off (s.step e).1 ∧ ∀ o ∈ (s.step e).2, Quiet o := by
  obtain ⟨h1, h2⟩ := h
  cases e with
  | runtime w f =>
    refine ⟨⟨?_, h2⟩, nofun⟩
    have := he w f rfl
    subst this
    exact set_value _ _
  | config c =>
    simp only [Sys.step]
    split
    · refine ⟨⟨h1, fun l hl => ?_⟩, fun o ho => ?_⟩
      · cases hl
        simp [Line.new, h1]
      · obtain ⟨n, _, rfl⟩ := List.mem_map.1 ho
        simp [Line.process, Line.new, h1, Quiet]
    · refine ⟨⟨h1, fun l hl => ?_⟩, nofun⟩
      cases hl
      simp [Line.update, h1]
  | log n =>
    simp only [Sys.step]
    split
    · exact ⟨⟨h1, by rename_i hl; intro l hl'; rw [hl] at hl'; cases hl'⟩, nofun⟩
    · rename_i l hl
      refine ⟨⟨h1, h2⟩, fun o ho => ?_⟩
      rw [List.mem_singleton.1 ho]
      simp [Line.process, h2 l hl, Quiet]
  | approved a bufs =>
    simp only [Sys.step]
    split
    · exact ⟨⟨h1, h2⟩, nofun⟩
    · rename_i l hl
      rw [h2 l hl]
      exact ⟨⟨h1, h2⟩, nofun⟩
  | pass =>
    simp only [Sys.step]
    split
    · exact ⟨⟨h1, h2⟩, nofun⟩
    · rename_i l hl
      unfold Sys.passOn
      split
      · dsimp only
        split
        · refine ⟨⟨h1, fun l' hl' => ?_⟩, fun o ho => ?_⟩
          · cases hl'; exact h2 l hl
          · rw [List.mem_singleton.1 ho]; trivial
        · refine ⟨⟨h1, fun l' hl' => ?_⟩, fun o ho => ?_⟩
          · cases hl'; exact h2 l hl
          · rw [List.mem_singleton.1 ho]; trivial
      · exact ⟨⟨h1, h2⟩, nofun⟩
  | seeWorkflows =>
    simp only [Sys.step]
    split
    · exact ⟨⟨h1, h2⟩, nofun⟩
    · split
      · exact ⟨⟨h1, h2⟩, nofun⟩
      · refine ⟨⟨h1, fun l' hl' => ?_⟩, nofun⟩
        cases hl'
        simp [h1]
  | seeFilters =>
    simp only [Sys.step]
    split
    · exact ⟨⟨h1, h2⟩, nofun⟩
    · rename_i l hl
      split
      · exact ⟨⟨h1, h2⟩, nofun⟩
      · refine ⟨⟨h1, fun l' hl' => ?_⟩, nofun⟩
        cases hl'
        exact h2 l hl
  | idle =>
    simp only [Sys.step]
    split
    · exact ⟨⟨h1, h2⟩, nofun⟩
    · split
      · exact ⟨⟨h1, h2⟩, nofun⟩
      · refine ⟨⟨h1, h2⟩, fun o ho => ?_⟩
        rw [List.mem_singleton.1 ho]; trivial
  | server bufs =>
    simp only [Sys.step]
    split <;> exact ⟨⟨h1, h2⟩, nofun⟩
  | take bad =>
    simp only [Sys.step]
    split
    · exact ⟨⟨h1, h2⟩, nofun⟩
    · refine ⟨⟨h1, h2⟩, fun o ho => ?_⟩
      rw [List.mem_singleton.1 ho]; trivial
  | up e =>
    simp only [Sys.step]
    split <;> exact ⟨⟨h1, h2⟩, nofun⟩
  | answer r =>
    simp only [Sys.step]
    split <;> exact ⟨⟨h1, h2⟩, nofun⟩
  | stop => exact ⟨⟨h1, h2⟩, nofun⟩

theorem Off.run (es : List Ev) (hr : ∀ w f, .runtime w f ∈ es → w = false) :
    ∀ {s : Sys}, Off s → ∀ o ∈ (s.run es).2, Quiet o := by
  induction es with
  | nil => intro s _ o ho; cases ho
  | cons e es ih =>
    intro s h o ho
    obtain ⟨a, b⟩ := h.step e (fun w f he => hr w f (by rw [he]; simp))
    rcases List.mem_append.1 (show o ∈ (s.step e).2 ++ ((s.step e).1.run es).2 from ho) with ho | ho
    · exact b o ho
    · exact ih (fun w f hm => hr w f (List.mem_cons_of_mem _ hm)) a o ho

/-- Idle means that nothing has to be looked at. -/
theorem idle_settled {s : Sys} (h : SInv s) (hi : Out.idle ∈ (s.step .idle).2) :
    ∃ l, s.line = some l ∧ l.filterOn = s.fc.value ∧ (l.engine.isSome = true → s.wf.value = true) ∧ s.step .idle = (s, [.idle]) := by
  simp only [Sys.step] at hi ⊢
  cases hl : s.line with
  | none => rw [hl] at hi; cases hi
  | some l =>
    rw [hl] at hi
    dsimp only at hi ⊢
    split at hi
    · cases hi
    · rename_i hr
      have hr' : l.ready s.wf s.fc = false := by simpa using hr
      simp only [Line.ready, Bool.or_eq_false_iff, bne_eq_false_iff_eq] at hr'
      refine ⟨l, rfl, ?_, fun he => ?_, by simp [hr]⟩
      · exact (h.filt l hl).resolve_right (fun x => x hr'.2)
      · exact (h.eng l hl he).resolve_right (fun x => x hr'.1.2)

/-- C112, switching off.  When the workflows flag is off, and since then the log task went to sleep once or a configuration was
applied, logs are processed without workflows and no flush is requested until the flag is switched on. -/
theorem C112_off (w f : Bool) (es es' : List Ev) (settle : Ev) (hlast : lastW w es = false)
    (hs : (∃ c, settle = .config c) ∨ (settle = .idle ∧ Out.idle ∈ ((((Sys.init w f).run es).1).step .idle).2))
    (hoff : ∀ w' f', .runtime w' f' ∈ es' → w' = false) :
    ∀ o ∈ (((Sys.init w f).run es).1.run (settle :: es')).2,
      (∀ n fl x, o = .log n fl x → x = none) ∧ (∀ r, o ≠ .asked r) ∧ (∀ a, o ≠ .overflow a) := by
  have h : SInv ((Sys.init w f).run es).1 := SInv.run es (SInv.init w f)
  have hv : ((Sys.init w f).run es).1.wf.value = false := by rw [run_wf]; exact hlast
  generalize ((Sys.init w f).run es).1 = s at h hv hs
  have key : Off (s.step settle).1 ∧ ∀ o ∈ (s.step settle).2, Quiet o := by
    rcases hs with ⟨c, rfl⟩ | ⟨rfl, hi⟩
    · simp only [Sys.step]
      split
      · refine ⟨⟨hv, fun l hl => ?_⟩, fun o ho => ?_⟩
        · cases hl
          simp [Line.new, hv]
        · obtain ⟨n, _, rfl⟩ := List.mem_map.1 ho
          simp [Line.process, Line.new, hv, Quiet]
      · refine ⟨⟨hv, fun l hl => ?_⟩, nofun⟩
        cases hl
        simp [Line.update, hv]
    · obtain ⟨l, hl, _, he, e⟩ := idle_settled h hi
      rw [e]
      refine ⟨⟨hv, fun l' hl' => ?_⟩, fun o ho => ?_⟩
      · rw [hl] at hl'
        cases hl'
        cases hx : l.engine with
        | none => rfl
        | some x =>
          have := he (by rw [hx]; rfl)
          rw [hv] at this
          cases this
      · rw [List.mem_singleton.1 ho]; trivial
  intro o ho
  have q : Quiet o := by
    rcases List.mem_append.1 (show o ∈ (s.step settle).2 ++ ((s.step settle).1.run es').2 from ho) with ho | ho
    · exact key.2 o ho
    · exact Off.run es' hoff key.1 o ho
  refine ⟨fun n fl x e => ?_, fun r e => ?_, fun a e => ?_⟩
  · rw [e] at q; exact q
  · rw [e] at q; exact q
  · rw [e] at q; exact q

/-- The pipeline knows the filters flag. -/
def Knows (v : Bool) (s : Sys) : Prop := s.fc.value = v ∧ ∀ l, s.line = some l → l.filterOn = v

theorem Knows.step {v : Bool} {s : Sys} (h : Knows v s) (e : Ev) (he : ∀ w f, e = .runtime w f → f = v) : Knows v (s.step e).1 := by
  obtain ⟨h1, h2⟩ := h
  cases e with
  | runtime w f =>
    refine ⟨?_, h2⟩
    have := he w f rfl
    subst this
    exact set_value _ _
  | config c =>
    simp only [Sys.step]
    split
    · refine ⟨h1, fun l hl => ?_⟩
      cases hl
      exact h1
    · rename_i l0 hl0
      refine ⟨h1, fun l hl => ?_⟩
      cases hl
      have := h2 l0 hl0
      unfold Line.update
      repeat' split
      all_goals exact this
  | log n =>
    simp only [Sys.step]
    split
    · exact ⟨h1, by rename_i hl; intro l hl'; rw [hl] at hl'; cases hl'⟩
    · exact ⟨h1, h2⟩
  | approved a bufs =>
    simp only [Sys.step]
    split
    · exact ⟨h1, h2⟩
    · rename_i l hl
      split
      · exact ⟨h1, h2⟩
      · unfold Sys.approve
        have := h2 l hl
        repeat' split
        all_goals first | exact ⟨h1, h2⟩ | exact ⟨h1, fun l' hl' => (by cases hl'; exact this)⟩
  | pass =>
    simp only [Sys.step]
    split
    · exact ⟨h1, h2⟩
    · rename_i l hl
      unfold Sys.passOn
      have := h2 l hl
      split
      · dsimp only
        split <;> exact ⟨h1, fun l' hl' => (by cases hl'; exact this)⟩
      · exact ⟨h1, h2⟩
  | seeWorkflows =>
    simp only [Sys.step]
    split
    · exact ⟨h1, h2⟩
    · rename_i l hl
      have := h2 l hl
      split
      · exact ⟨h1, h2⟩
      · exact ⟨h1, fun l' hl' => (by cases hl'; exact this)⟩
  | seeFilters =>
    simp only [Sys.step]
    split
    · exact ⟨h1, h2⟩
    · split
      · exact ⟨h1, h2⟩
      · exact ⟨h1, fun l' hl' => (by cases hl'; exact h1)⟩
  | idle =>
    simp only [Sys.step]
    split
    · exact ⟨h1, h2⟩
    · split <;> exact ⟨h1, h2⟩
  | server bufs =>
    simp only [Sys.step]
    split <;> exact ⟨h1, h2⟩
  | take bad =>
    simp only [Sys.step]
    split <;> exact ⟨h1, h2⟩
  | up e =>
    simp only [Sys.step]
    split <;> exact ⟨h1, h2⟩
  | answer r =>
    simp only [Sys.step]
    split <;> exact ⟨h1, h2⟩
  | stop => exact ⟨h1, h2⟩

theorem Knows.run {v : Bool} (es : List Ev) (hr : ∀ w f, .runtime w f ∈ es → f = v) : ∀ {s : Sys}, Knows v s → Knows v (s.run es).1 := by
  induction es with
  | nil => intro s h; exact h
  | cons e es ih =>
    intro s h
    exact ih (fun w f hm => hr w f (List.mem_cons_of_mem _ hm)) (h.step e (fun w f he => hr w f (by rw [he]; simp)))

/-- C112, filters.  Once the log task went to sleep with the filters flag on (off), every log is processed with the filters of the last
configuration (without filters) until the flag changes. -/
theorem C112_filters (w f v : Bool) (es es' : List Ev) (n : Nat) (hlast : lastF f es = v)
    (hi : Out.idle ∈ ((((Sys.init w f).run es).1).step .idle).2) (hkeep : ∀ w' f', .runtime w' f' ∈ es' → f' = v) :
    ∃ x, (((((Sys.init w f).run es).1).run es').1.step (.log n)).2 = [.log n (if v then lastCfg none (es ++ es') else none) x] := by
  have h : SInv ((Sys.init w f).run es).1 := SInv.run es (SInv.init w f)
  have hv : ((Sys.init w f).run es).1.fc.value = v := by rw [run_fc]; exact hlast
  have hc := run_cfg (es ++ es') (Sys.init w f)
  rw [sys_run_append] at hc
  dsimp only at hc
  generalize ((Sys.init w f).run es).1 = s at h hv hi hc
  obtain ⟨l, hl, he, _, _⟩ := idle_settled h hi
  have k : Knows v (s.run es').1 := Knows.run es' hkeep ⟨hv, fun l' hl' => by rw [hl] at hl'; cases hl'; rw [he, hv]⟩
  have hsome : ∀ (es' : List Ev) (s : Sys), s.line.isSome = true → (s.run es').1.line.isSome = true := by
    intro es'
    induction es' with
    | nil => intro s hs; exact hs
    | cons e es' ih =>
      intro s hs
      apply ih
      have e1 := step_cfg s e
      cases hs1 : s.line with
      | none => rw [hs1] at hs; cases hs
      | some l =>
        rw [hs1] at e1
        cases hs2 : (s.step e).1.line with
        | some _ => rfl
        | none =>
          rw [hs2] at e1
          cases e <;> cases e1
  have hso := hsome es' s (by rw [hl]; rfl)
  cases hl2 : (s.run es').1.line with
  | none => rw [hl2] at hso; cases hso
  | some l2 =>
    have hl2' : (s.run es').1.line = some l2 := hl2
    refine ⟨l2.engine.map (·.cfg), ?_⟩
    simp only [Sys.step, hl2, Line.process, k.2 l2 hl2']
    rw [hl2] at hc
    have hc' : some l2.cfg = lastCfg none (es ++ es') := hc
    rw [hc']

/-- C112, logs from before the configuration are processed with the flags of the moment and the configuration that came. -/
theorem C112_first (w f : Bool) (es : List Ev) (c : Nat) (hno : ∀ c', .config c' ∉ es) :
    ((((Sys.init w f).run es).1).step (.config c)).2 =
      (logsOf es).map fun n => .log n (if lastF f es then some c else none) (if lastW w es then some c else none) := by
  have hp : ∀ (es : List Ev) (s : Sys), s.line = none → (∀ c', .config c' ∉ es) → (s.run es).1.line = none ∧ (s.run es).1.pre = s.pre ++ logsOf es := by
    intro es
    induction es with
    | nil => intro s hs _; exact ⟨hs, by simp [Sys.run, logsOf]⟩
    | cons e es ih =>
      intro s hs hn
      have hn' : ∀ c', .config c' ∉ es := fun c' hm => hn c' (List.mem_cons_of_mem _ hm)
      have h1 : (s.step e).1.line = none ∧ (s.step e).1.pre ++ logsOf es = s.pre ++ logsOf (e :: es) := by
        cases e with
        | config c' => exact absurd (List.mem_cons_self ..) (hn c')
        | log n => simp [Sys.step, hs, logsOf]
        | server bufs =>
          simp only [Sys.step]
          split <;> exact ⟨hs, rfl⟩
        | take bad =>
          simp only [Sys.step]
          split <;> exact ⟨hs, rfl⟩
        | up e =>
          simp only [Sys.step]
          split <;> exact ⟨hs, rfl⟩
        | answer r =>
          simp only [Sys.step]
          split <;> exact ⟨hs, rfl⟩
        | _ => simp [Sys.step, hs, logsOf]
      obtain ⟨a, b⟩ := ih (s.step e).1 h1.1 hn'
      exact ⟨a, by rw [← h1.2]; exact b⟩
  obtain ⟨a, b⟩ := hp es (Sys.init w f) rfl hno
  have hw := run_wf es (Sys.init w f)
  have hf := run_fc es (Sys.init w f)
  simp only [Sys.step, a, b]
  have hw' : ((Sys.init w f).run es).1.wf.value = lastW w es := hw
  have hf' : ((Sys.init w f).run es).1.fc.value = lastF f es := hf
  show (([] : List Nat) ++ logsOf es).map _ = _
  rw [List.nil_append]
  apply List.map_congr_left
  intro n _
  simp only [Line.process, Line.new, hw', hf']
  cases lastW w es <;> rfl

/-- C112, never an old configuration: whatever happened, a log is processed with the filters of the last configuration or without, and
with the workflows of the last configuration or without. -/
theorem C112_current (w f : Bool) (es : List Ev) (n m : Nat) (x y : Option Nat)
    (ho : Out.log m x y ∈ ((((Sys.init w f).run es).1).step (.log n)).2) :
    m = n ∧ (x = none ∨ x = lastCfg none es) ∧ (y = none ∨ y = lastCfg none es) := by
  have h : SInv ((Sys.init w f).run es).1 := SInv.run es (SInv.init w f)
  have hc : ((Sys.init w f).run es).1.line.map (·.cfg) = lastCfg none es := run_cfg es (Sys.init w f)
  generalize ((Sys.init w f).run es).1 = s at h hc ho
  simp only [Sys.step] at ho
  cases hl : s.line with
  | none => rw [hl] at ho; cases ho
  | some l =>
    rw [hl] at ho hc
    have e := List.mem_singleton.1 ho
    simp only [Line.process, Out.log.injEq] at e
    obtain ⟨rfl, e1, e2⟩ := e
    have hc' : some l.cfg = lastCfg none es := hc
    refine ⟨rfl, ?_, ?_⟩
    · rw [e1]
      split
      · exact Or.inr hc'
      · exact Or.inl rfl
    · rw [e2]
      cases he : l.engine with
      | none => exact Or.inl rfl
      | some g => exact Or.inr (by rw [← hc', ← h.cfg l g hl he]; rfl)

/-- The engine is there, with the configuration. -/
def On (c : Nat) (s : Sys) : Prop := s.wf.value = true ∧ ∃ l e, s.line = some l ∧ l.engine = some e ∧ e.cfg = c

theorem On.step {c : Nat} {s : Sys} (h : On c s) (e : Ev) (hw : ∀ w f, e = .runtime w f → w = true) (hc : ∀ c', e ≠ .config c') : On c (s.step e).1 := by
  obtain ⟨h1, l, g, hl, hg, hcc⟩ := h
  cases e with
  | runtime w f =>
    have := hw w f rfl
    subst this
    exact ⟨set_value _ _, l, g, hl, hg, hcc⟩
  | config c' => exact absurd rfl (hc c')
  | log n => simp only [Sys.step, hl]; exact ⟨h1, l, g, hl, hg, hcc⟩
  | approved a bufs =>
    simp only [Sys.step, hl, hg, Sys.approve]
    repeat' split
    all_goals first | exact ⟨h1, l, g, hl, hg, hcc⟩ | exact ⟨h1, _, _, rfl, rfl, hcc⟩
  | pass =>
    simp only [Sys.step, hl, Sys.passOn]
    split
    · split <;> exact ⟨h1, _, g, rfl, hg, hcc⟩
    · exact ⟨h1, l, g, hl, hg, hcc⟩
  | seeWorkflows =>
    simp only [Sys.step, hl]
    split
    · exact ⟨h1, l, g, hl, hg, hcc⟩
    · exact ⟨h1, _, g, rfl, by simp [h1, hg], hcc⟩
  | seeFilters =>
    simp only [Sys.step, hl]
    split
    · exact ⟨h1, l, g, hl, hg, hcc⟩
    · exact ⟨h1, _, g, rfl, hg, hcc⟩
  | idle =>
    simp only [Sys.step, hl]
    split <;> exact ⟨h1, l, g, hl, hg, hcc⟩
  | server bufs =>
    simp only [Sys.step]
    split <;> exact ⟨h1, l, g, hl, hg, hcc⟩
  | take bad =>
    simp only [Sys.step]
    split <;> exact ⟨h1, l, g, hl, hg, hcc⟩
  | up e =>
    simp only [Sys.step]
    split <;> exact ⟨h1, l, g, hl, hg, hcc⟩
  | answer r =>
    simp only [Sys.step]
    split <;> exact ⟨h1, l, g, hl, hg, hcc⟩
  | stop => exact ⟨h1, l, g, hl, hg, hcc⟩

/-- C112, switching on: from a configuration that comes while the flag is on, and as long as it stays on, logs are processed with the
workflows of this configuration (until the next).

The full statement: once the log task went to sleep with the flag on, logs are processed with the workflows of the last configuration.
Missing: after being switched off and on, workflows stay off until the next configuration (`C112_on_violated`). -/
theorem C112_on_partial (w f : Bool) (es es' : List Ev) (c n : Nat) (hon : lastW w es = true)
    (hkeep : ∀ w' f', .runtime w' f' ∈ es' → w' = true) (hno : ∀ c', .config c' ∉ es') :
    ∃ x, ((((Sys.init w f).run (es ++ .config c :: es')).1).step (.log n)).2 = [.log n x (some c)] := by
  have hv : ((Sys.init w f).run es).1.wf.value = true := by rw [run_wf]; exact hon
  rw [sys_run_append]
  dsimp only
  generalize ((Sys.init w f).run es).1 = s at hv
  have h0 : On c (s.step (.config c)).1 := by
    simp only [Sys.step]
    split
    · exact ⟨hv, _, Eng.fresh c, rfl, by simp [Line.new, hv], rfl⟩
    · simp only [Line.update, hv, if_true]
      split
      · exact ⟨hv, _, _, rfl, rfl, rfl⟩
      · exact ⟨hv, _, _, rfl, rfl, rfl⟩
  have h1 : ∀ (es' : List Ev) (s : Sys), On c s → (∀ w' f', .runtime w' f' ∈ es' → w' = true) → (∀ c', .config c' ∉ es') → On c (s.run es').1 := by
    intro es'
    induction es' with
    | nil => intro s h _ _; exact h
    | cons e es' ih =>
      intro s h hw hc
      exact ih _ (h.step e (fun w f he => hw w f (by rw [he]; simp)) (fun c' he => hc c' (by rw [he]; simp)))
        (fun w f hm => hw w f (List.mem_cons_of_mem _ hm)) (fun c' hm => hc c' (List.mem_cons_of_mem _ hm))
  obtain ⟨_, l, g, hl, hg, hgc⟩ := h1 es' _ h0 hkeep hno
  refine ⟨if l.filterOn then some l.cfg else none, ?_⟩
  simp only [Sys.run, Sys.step, Line.process] at hl ⊢
  rw [hl]
  simp [hg, hgc]

/-- C112, switching on is not noticed: the flag is on, the log task slept with it being on, but logs are processed without workflows. -/
theorem C112_on_violated :
    let es : List Ev := [.config 1, .log 10, .runtime false true, .seeWorkflows, .runtime true true, .seeWorkflows, .idle]
    lastW true es = true ∧ Out.idle ∈ (((Sys.init true true).run es).1.step .idle).2 ∧
    (((Sys.init true true).run es).1.step (.log 11)).2 = [.log 11 (some 1) none] := by decide

/-- A history for `C112_off`: the engine sees logs, is switched off, and the task goes to sleep. -/
example :
    let es : List Ev := [.log 7, .config 1, .log 8, .runtime false true, .log 9, .seeWorkflows, .log 10]
    lastW true es = false ∧ Out.idle ∈ (((Sys.init true true).run es).1.step .idle).2 ∧
    ((Sys.init true true).run es).2 = [.log 7 (some 1) (some 1), .log 8 (some 1) (some 1), .log 9 (some 1) (some 1), .log 10 (some 1) none] := by decide

/-- A history for `C112_filters`. -/
example :
    let es : List Ev := [.config 1, .runtime true false, .log 8, .seeFilters]
    lastF true es = false ∧ Out.idle ∈ (((Sys.init true true).run es).1.step .idle).2 ∧
    (((Sys.init true true).run (es ++ [.config 2])).1.step (.log 9)).2 = [.log 9 none (some 2)] := by decide

/-! ### Requests -/

/-- The requests the engine sent. -/
def askedOf (os : List Out) : List Req := os.filterMap fun o => match o with | .asked r => some r | _ => none

/-- The requests the pipeline tried to give to the uploader. -/
def handedOf (os : List Out) : List Req := os.filterMap fun o => match o with | .passed r => some r | .refused r => some r | _ => none

/-- The requests of engines that the uploader took, with their buffers. -/
def tookOf (os : List Out) : List (Nat × List BufId) := os.filterMap fun o => match o with | .took j => j.src.map (·, j.buffers) | _ => none

/-- The requests of engines in the channel to the uploader. -/
def Sys.waitingJobs (s : Sys) : List (Nat × List BufId) := s.trig.filterMap fun j => j.src.map (·, j.buffers)

def Req.pair (r : Req) : Nat × List BufId := (r.serial, r.buffers)

theorem askedOf_append (a b : List Out) : askedOf (a ++ b) = askedOf a ++ askedOf b := List.filterMap_append
theorem handedOf_append (a b : List Out) : handedOf (a ++ b) = handedOf a ++ handedOf b := List.filterMap_append
theorem tookOf_append (a b : List Out) : tookOf (a ++ b) = tookOf a ++ tookOf b := List.filterMap_append

/-- What a step does to the requests. -/
inductive Move (s s' : Sys) (os : List Out) : Prop where
  /-- nothing; perhaps the uploader goes on -/
  | keep (hq : s'.queue = s.queue) (ht : s'.trig = s.trig) (hk : s'.taken = s.taken) (hn : s'.next = s.next)
      (hr : s'.up.requests = s.up.requests) (hd : s'.up.dead = s.up.dead) (ho : ∀ r ∈ s'.up.open_, r ∈ s.up.open_)
      (h1 : askedOf os = []) (h2 : handedOf os = []) (h3 : tookOf os = [])
  | ask (r : Req) (hs : r.serial = s.next) (hl : s.queue.length < 10) (hq : s'.queue = s.queue ++ [r]) (ht : s'.trig = s.trig) (hk : s'.taken = s.taken)
      (hn : s'.next = s.next + 1) (hu : s'.up = s.up) (ho : os = [.asked r])
  | drop (hw : s.line = none ∨ ∃ l, s.line = some l ∧ l.engine = none) (hq : s'.queue = []) (ht : s'.trig = s.trig) (hk : s'.taken = s.taken) (hn : s'.next = s.next) (hu : s'.up = s.up)
      (h1 : askedOf os = []) (h2 : handedOf os = []) (h3 : tookOf os = [])
  | pass (r : Req) (hq : s.queue = r :: s'.queue) (ht : s'.trig = s.trig ++ [⟨some r.serial, r.buffers⟩]) (he : s.trig = [])
      (hd : s.up.dead = false) (hk : s'.taken = s.taken) (hn : s'.next = s.next) (hu : s'.up = s.up) (ho : os = [.passed r])
  | refuse (r : Req) (hq : s.queue = r :: s'.queue) (ht : s'.trig = s.trig) (hk : s'.taken = s.taken) (hn : s'.next = s.next)
      (hu : s'.up = s.up) (ho : os = [.refused r])
  | server (b : List BufId) (hq : s'.queue = s.queue) (ht : s'.trig = s.trig ++ [⟨none, b⟩]) (he : s.trig = []) (hd : s.up.dead = false)
      (hk : s'.taken = s.taken) (hn : s'.next = s.next) (hu : s'.up = s.up) (ho : os = [])
  | take (j : Job) (rest : List Job) (bad : List BufId) (ht : s.trig = j :: rest) (hq : s'.queue = s.queue)
      (ht' : s'.trig = if s'.up.dead then [] else rest) (hk : s'.taken = s.taken ++ [j.src]) (hn : s'.next = s.next)
      (hu : s'.up = s.up.step (.trigger j.buffers bad)) (ho : os = [.took j])
  | stop (hq : s'.queue = s.queue) (ht : s'.trig = []) (hk : s'.taken = s.taken) (hn : s'.next = s.next)
      (hu : s'.up = { s.up with dead := true }) (ho : os = [])

theorem up_other (u : TM) (e : TEv) (h : TEv.other e = true) :
    (u.step e).requests = u.requests ∧ (u.step e).dead = u.dead ∧ (u.step e).open_ = u.open_ := by
  cases e with
  | created b => simp only [TM.step]; split <;> exact ⟨rfl, rfl, rfl⟩
  | removed b => simp only [TM.step]; split <;> exact ⟨rfl, rfl, rfl⟩
  | trigger ids bad => cases h
  | finish r b => simp only [TM.step]; split <;> exact ⟨rfl, rfl, rfl⟩
  | notify b =>
    simp only [TM.step]
    split
    · exact ⟨rfl, rfl, rfl⟩
    · split <;> exact ⟨rfl, rfl, rfl⟩
  | respond r => cases h

theorem Move.refl (s : Sys) : Move s s [] := .keep rfl rfl rfl rfl rfl rfl (fun _ h => h) rfl rfl rfl

theorem logs_no_requests (ns : List Nat) (l : Line) :
    askedOf (ns.map l.process) = [] ∧ handedOf (ns.map l.process) = [] ∧ tookOf (ns.map l.process) = [] := by
  refine ⟨?_, ?_, ?_⟩
  all_goals
    induction ns with
    | nil => rfl
    | cons n ns ih => simpa [askedOf, handedOf, tookOf, Line.process] using ih

theorem step_move (s : Sys) (e : Ev) : Move s (s.step e).1 (s.step e).2 := by
  cases e with
  | runtime w f => exact .keep rfl rfl rfl rfl rfl rfl (fun _ h => h) rfl rfl rfl
  | config c =>
    simp only [Sys.step]
    cases hl : s.line with
    | none =>
      obtain ⟨a, b, c'⟩ := logs_no_requests s.pre (Line.new s.wf s.fc c)
      dsimp only
      refine .drop (Or.inl hl) ?_ rfl rfl rfl rfl a b c'
      simp only [Sys.queue, Line.new, Option.bind]
      split <;> rfl
    | some l =>
      dsimp only
      unfold Line.update
      split
      · split
        · refine .keep ?_ rfl rfl rfl rfl rfl (fun _ h => h) rfl rfl rfl
          simp only [Sys.queue, hl]
          rfl
        · rename_i hg
          exact .drop (Or.inr ⟨l, hl, hg⟩) rfl rfl rfl rfl rfl rfl rfl rfl
      · refine .keep ?_ rfl rfl rfl rfl rfl (fun _ h => h) rfl rfl rfl
        simp only [Sys.queue, hl]
        rfl
  | log n =>
    simp only [Sys.step]
    split
    · exact .keep rfl rfl rfl rfl rfl rfl (fun _ h => h) rfl rfl rfl
    · exact .keep rfl rfl rfl rfl rfl rfl (fun _ h => h) rfl rfl rfl
  | approved a bufs =>
    simp only [Sys.step]
    cases hl : s.line with
    | none => exact Move.refl s
    | some l =>
      dsimp only
      cases hg : l.engine with
      | none => exact Move.refl s
      | some g =>
        dsimp only
        unfold Sys.approve
        split
        · exact Move.refl s
        · cases hq : l.rx with
          | none =>
            dsimp only
            refine .keep ?_ rfl rfl rfl rfl rfl (fun _ h => h) rfl rfl rfl
            simp [Sys.queue, hl, hq]
          | some q =>
            dsimp only
            split
            · rename_i hlt
              refine .ask ⟨s.next, a, bufs⟩ rfl ?_ ?_ rfl rfl rfl rfl rfl
              · simpa [Sys.queue, hl, hq] using hlt
              · simp [Sys.queue, hl, hq]
            · refine .keep ?_ rfl rfl rfl rfl rfl (fun _ h => h) rfl rfl rfl
              simp [Sys.queue, hl, hq]
  | pass =>
    simp only [Sys.step]
    cases hl : s.line with
    | none => exact Move.refl s
    | some l =>
      dsimp only
      unfold Sys.passOn
      split
      · rename_i r q hq
        dsimp only
        split
        · rename_i hc
          simp only [Bool.and_eq_true, Bool.not_eq_true', List.isEmpty_iff] at hc
          refine .pass r ?_ rfl hc.2 hc.1 rfl rfl rfl rfl
          simp [Sys.queue, hl, hq]
        · refine .refuse r ?_ rfl rfl rfl rfl rfl
          simp [Sys.queue, hl, hq]
      · exact Move.refl s
  | seeWorkflows =>
    simp only [Sys.step]
    cases hl : s.line with
    | none => exact Move.refl s
    | some l =>
      dsimp only
      split
      · exact Move.refl s
      · refine .keep ?_ rfl rfl rfl rfl rfl (fun _ h => h) rfl rfl rfl
        simp [Sys.queue, hl]
  | seeFilters =>
    simp only [Sys.step]
    cases hl : s.line with
    | none => exact Move.refl s
    | some l =>
      dsimp only
      split
      · exact Move.refl s
      · refine .keep ?_ rfl rfl rfl rfl rfl (fun _ h => h) rfl rfl rfl
        simp [Sys.queue, hl]
  | idle =>
    simp only [Sys.step]
    split
    · exact Move.refl s
    · split
      · exact Move.refl s
      · exact .keep rfl rfl rfl rfl rfl rfl (fun _ h => h) rfl rfl rfl
  | server bufs =>
    simp only [Sys.step]
    split
    · rename_i hc
      simp only [Bool.and_eq_true, Bool.not_eq_true', List.isEmpty_iff] at hc
      exact .server bufs rfl rfl hc.2 hc.1 rfl rfl rfl rfl
    · exact Move.refl s
  | take bad =>
    simp only [Sys.step]
    split
    · exact Move.refl s
    · rename_i j rest ht
      exact .take j rest bad ht rfl rfl rfl rfl rfl rfl
  | up e =>
    simp only [Sys.step]
    split
    · rename_i he
      obtain ⟨a, b, c⟩ := up_other s.up e he
      exact .keep rfl rfl rfl rfl a b (fun r hr => by rw [← c]; exact hr) rfl rfl rfl
    · exact Move.refl s
  | answer r =>
    simp only [Sys.step]
    split
    · exact Move.refl s
    · exact .keep rfl rfl rfl rfl rfl rfl (fun _ h => (List.mem_filter.1 h).1) rfl rfl rfl
  | stop => exact .stop rfl rfl rfl rfl rfl rfl

/-- Where the requests are. -/
structure GInv (s : Sys) (os : List Out) : Prop where
  serials : (askedOf os).map (·.serial) = List.range s.next
  handed : (handedOf os ++ s.queue).Sublist (askedOf os)
  took : (tookOf os ++ s.waitingJobs ++ s.queue.map Req.pair).Sublist ((askedOf os).map Req.pair)
  cap : s.trig.length ≤ 1
  dead : s.up.dead = true → s.trig = []
  taken : s.up.dead = false → s.taken.length = s.up.requests
  opens : ∀ r ∈ s.up.open_, r < s.taken.length
  ids : s.taken.filterMap id = (tookOf os).map (·.1)
  len : s.queue.length ≤ 10

theorem startAll_open (r : Nat) (bad : List BufId) : ∀ (ids : List BufId) (u : TM),
    (TM.startAll r bad ids u).open_ = u.open_ ∧ (TM.startAll r bad ids u).requests = u.requests := by
  intro ids
  induction ids with
  | nil => intro u; exact ⟨rfl, rfl⟩
  | cons b bs ih =>
    intro u
    unfold TM.startAll
    split
    · exact ih u
    · split
      · split
        · exact ⟨rfl, rfl⟩
        · exact ih _
      · exact ih u

/-- The uploader takes a request. -/
theorem trigger_open (u : TM) (ids bad : List BufId) (hd : u.dead = false) :
    (u.step (.trigger ids bad)).requests = u.requests + 1 ∧ ∀ r ∈ (u.step (.trigger ids bad)).open_, r ∈ u.open_ ∨ r = u.requests := by
  simp only [TM.step, hd, Bool.false_eq_true, if_false]
  refine ⟨trivial, fun r hr => ?_⟩
  split at hr
  · exact Or.inl hr
  · rcases List.mem_append.1 hr with h | h
    · exact Or.inl h
    · exact Or.inr (List.mem_singleton.1 h)

theorem GInv.init (w f : Bool) : GInv (Sys.init w f) [] :=
  ⟨rfl, List.Sublist.slnil, List.Sublist.slnil, Nat.zero_le _, fun _ => rfl, fun _ => rfl, nofun, rfl, Nat.zero_le _⟩

theorem GInv.move {s s' : Sys} {os os' : List Out} (h : GInv s os) (m : Move s s' os') : GInv s' (os ++ os') := by
  obtain ⟨a, b, c, d, e, g, k, m', ln⟩ := h
  cases m with
  | keep hq ht hk hn hr hd ho h1 h2 h3 =>
    have hj : s'.waitingJobs = s.waitingJobs := by unfold Sys.waitingJobs; rw [ht]
    constructor
    · rw [askedOf_append, h1, List.append_nil, hn]; exact a
    · rw [handedOf_append, askedOf_append, h1, h2, hq]; simpa using b
    · rw [tookOf_append, askedOf_append, h1, h3, hq, hj]; simpa using c
    · rw [ht]; exact d
    · rw [hd, ht]; exact e
    · rw [hd, hk, hr]; exact g
    · intro r hr'; rw [hk]; exact k r (ho r hr')
    · rw [tookOf_append, h3, hk, List.append_nil]; exact m'
    · rw [hq]; exact ln
  | ask r hs hl hq ht hk hn hu ho =>
    have hj : s'.waitingJobs = s.waitingJobs := by unfold Sys.waitingJobs; rw [ht]
    subst ho
    constructor
    · rw [askedOf_append, List.map_append, a, hn, List.range_succ, ← hs]; rfl
    · rw [handedOf_append, askedOf_append, hq]
      have : (handedOf os ++ s.queue ++ [r]).Sublist (askedOf os ++ [r]) := b.append (List.Sublist.refl _)
      simpa [handedOf, askedOf] using this
    · rw [tookOf_append, askedOf_append, hq, hj]
      have := c.append (List.Sublist.refl [r.pair])
      simpa [tookOf, askedOf] using this
    · rw [ht]; exact d
    · rw [hu, ht]; exact e
    · rw [hu, hk]; exact g
    · rw [hu, hk]; exact k
    · rw [hk]; simpa [tookOf_append, tookOf] using m'
    · rw [hq]; simp; omega
  | drop hw hq ht hk hn hu h1 h2 h3 =>
    have hj : s'.waitingJobs = s.waitingJobs := by unfold Sys.waitingJobs; rw [ht]
    constructor
    · rw [askedOf_append, h1, List.append_nil, hn]; exact a
    · rw [handedOf_append, askedOf_append, h1, h2, hq]
      simp only [List.append_nil]
      exact (List.sublist_append_left _ _).trans b
    · rw [tookOf_append, askedOf_append, h1, h3, hq, hj]
      simp only [List.append_nil, List.map_nil]
      exact (List.sublist_append_left _ _).trans c
    · rw [ht]; exact d
    · rw [hu, ht]; exact e
    · rw [hu, hk]; exact g
    · rw [hu, hk]; exact k
    · rw [hk, tookOf_append, h3, List.append_nil]; exact m'
    · rw [hq]; exact Nat.zero_le _
  | pass r hq ht he hd hk hn hu ho =>
    subst ho
    have hj : s'.waitingJobs = [r.pair] := by unfold Sys.waitingJobs; rw [ht, he]; rfl
    have hj0 : s.waitingJobs = [] := by unfold Sys.waitingJobs; rw [he]; rfl
    constructor
    · rw [askedOf_append, hn]; simpa [askedOf] using a
    · rw [handedOf_append, askedOf_append]
      rw [hq] at b
      simpa [handedOf, askedOf] using b
    · rw [tookOf_append, askedOf_append, hj]
      rw [hq, hj0] at c
      simpa [tookOf, askedOf] using c
    · rw [ht, he]; exact Nat.le_refl _
    · rw [hu, hd]; exact fun x => (by cases x)
    · rw [hu, hk]; exact g
    · rw [hu, hk]; exact k
    · rw [hk]; simpa [tookOf_append, tookOf] using m'
    · rw [hq] at ln; simp at ln; omega
  | refuse r hq ht hk hn hu ho =>
    subst ho
    have hj : s'.waitingJobs = s.waitingJobs := by unfold Sys.waitingJobs; rw [ht]
    constructor
    · rw [askedOf_append, hn]; simpa [askedOf] using a
    · rw [handedOf_append, askedOf_append]
      rw [hq] at b
      simpa [handedOf, askedOf] using b
    · rw [tookOf_append, askedOf_append, hj]
      rw [hq] at c
      have : (tookOf os ++ s.waitingJobs ++ s'.queue.map Req.pair).Sublist (tookOf os ++ s.waitingJobs ++ (r :: s'.queue).map Req.pair) :=
        (List.Sublist.refl _).append (List.sublist_cons_self _ _)
      simpa [tookOf, askedOf] using this.trans c
    · rw [ht]; exact d
    · rw [hu, ht]; exact e
    · rw [hu, hk]; exact g
    · rw [hu, hk]; exact k
    · rw [hk]; simpa [tookOf_append, tookOf] using m'
    · rw [hq] at ln; simp at ln; omega
  | server bf hq ht he hd hk hn hu ho =>
    subst ho
    have hj : s'.waitingJobs = s.waitingJobs := by unfold Sys.waitingJobs; rw [ht, he]; rfl
    rw [List.append_nil]
    constructor
    · rw [hn]; exact a
    · rw [hq]; exact b
    · rw [hq, hj]; exact c
    · rw [ht, he]; exact Nat.le_refl _
    · rw [hu, hd]; exact fun x => (by cases x)
    · rw [hu, hk]; exact g
    · rw [hu, hk]; exact k
    · rw [hk]; simpa [tookOf_append, tookOf] using m'
    · rw [hq]; exact ln
  | take j rest bad ht hq ht' hk hn hu ho =>
    subst ho
    have hd : s.up.dead = false := by
      cases hx : s.up.dead with
      | false => rfl
      | true => have := e hx; rw [ht] at this; cases this
    have hrest : rest = [] := by
      rw [ht] at d
      simp only [List.length_cons] at d
      exact List.length_eq_zero_iff.1 (by omega)
    have ht2 : s'.trig = [] := by rw [ht', hrest]; split <;> rfl
    obtain ⟨u1, u2⟩ := trigger_open s.up j.buffers bad hd
    have hj : s'.waitingJobs = [] := by unfold Sys.waitingJobs; rw [ht2]; rfl
    have hj0 : s.waitingJobs = tookOf [.took j] := by
      unfold Sys.waitingJobs tookOf
      rw [ht, hrest]
      cases hsrc : j.src <;> simp [hsrc]
    constructor
    · rw [askedOf_append, hn]; simpa [askedOf] using a
    · rw [handedOf_append, askedOf_append, hq]; simpa [handedOf, askedOf] using b
    · rw [tookOf_append, askedOf_append, hj, hq]
      rw [hj0] at c
      simpa [askedOf] using c
    · rw [ht2]; exact Nat.zero_le _
    · intro _; exact ht2
    · intro _
      rw [hk, hu, u1, List.length_append, g hd]; rfl
    · intro r hr
      rw [hu] at hr
      rw [hk, List.length_append]
      simp only [List.length_cons, List.length_nil]
      rcases u2 r hr with h | h
      · have := k r h; omega
      · have := g hd; omega
    · rw [hk, tookOf_append, List.filterMap_append, m', List.map_append]
      congr 1
      cases hsrc : j.src <;> simp [tookOf, hsrc]
    · rw [hq]; exact ln
  | stop hq ht hk hn hu ho =>
    subst ho
    have hj : s'.waitingJobs = [] := by unfold Sys.waitingJobs; rw [ht]; rfl
    rw [List.append_nil]
    constructor
    · rw [hn]; exact a
    · rw [hq]; exact b
    · rw [hq, hj, List.append_nil]
      refine List.Sublist.trans ?_ c
      exact (List.sublist_append_left _ _).append (List.Sublist.refl _)
    · rw [ht]; exact Nat.zero_le _
    · intro _; exact ht
    · rw [hu]; exact fun x => (by cases x)
    · rw [hu, hk]; exact k
    · rw [hk]; simpa [tookOf_append, tookOf] using m'
    · rw [hq]; exact ln

theorem GInv.run (es : List Ev) : ∀ {s : Sys} {os : List Out}, GInv s os → GInv (s.run es).1 (os ++ (s.run es).2) := by
  induction es with
  | nil => intro s os h; simpa [Sys.run] using h
  | cons e es ih =>
    intro s os h
    have := ih (h.move (step_move s e))
    simpa [Sys.run, List.append_assoc] using this

/-- C113, at most once and in order: the requests given to the uploader, and those that were refused and counted, are requests of an engine,
each at most once and in their order; what the uploader takes are requests of an engine with their buffers, each at most once and in
order, and requests of the server. -/
theorem C113_once (w f : Bool) (es : List Ev) :
    let os := ((Sys.init w f).run es).2
    ((askedOf os).map (·.serial)).Pairwise (· < ·) ∧ (handedOf os).Sublist (askedOf os) ∧
    (tookOf os).Sublist ((askedOf os).map fun r => (r.serial, r.buffers)) := by
  have h : GInv _ _ := GInv.run es (GInv.init w f)
  rw [List.nil_append] at h
  refine ⟨?_, (List.sublist_append_left _ _).trans h.handed, ?_⟩
  · rw [h.serials]; exact List.pairwise_lt_range
  · have := h.took
    rw [List.append_assoc] at this
    exact (List.sublist_append_left _ _).trans this

/-! ### Every request gets somewhere -/

/-- How far a request still has to go: its place in the channel of the engine, the channel to the uploader, the uploader, done. -/
def Sys.rank (s : Sys) (n : Nat) : Nat :=
  if n ∈ s.queue.map (·.serial) then 3 + (s.queue.map (·.serial)).idxOf n
  else if s.trig.any (·.src == some n) then 2
  else if s.up.open_.any (fun r => s.taken[r]? == some (some n)) then 1
  else 0

theorem rank_open (s : Sys) (n : Nat) : s.isOpen n = true ↔ s.rank n ≠ 0 := by
  unfold Sys.isOpen Sys.rank
  have : (s.queue.any (·.serial == n)) = true ↔ n ∈ s.queue.map (·.serial) := by simp [List.mem_map]
  split
  · rename_i h
    rw [this.2 h]
    simp
  · rename_i h
    have : s.queue.any (·.serial == n) = false := by
      cases hx : s.queue.any (·.serial == n) with
      | false => rfl
      | true => exact absurd (this.1 hx) h
    rw [this, Bool.false_or]
    split
    · rename_i h1; rw [h1]; simp
    · rename_i h1
      have h1' : s.trig.any (·.src == some n) = false := by simpa using h1
      rw [h1', Bool.false_or]
      split
      · rename_i h2; rw [h2]; simp
      · rename_i h2; simp [h2]

theorem rank_le_two {s : Sys} {n : Nat} (h : n ∉ s.queue.map (·.serial)) : s.rank n ≤ 2 := by
  unfold Sys.rank
  rw [if_neg h]
  split
  · exact Nat.le_refl _
  · split <;> omega

theorem queue_nodup {s : Sys} {os : List Out} (h : GInv s os) : (s.queue.map (·.serial)).Nodup := by
  have h1 : (s.queue.map (·.serial)).Sublist (List.range s.next) := by
    rw [← h.serials]
    exact ((List.sublist_append_right _ _).trans h.handed).map _
  exact h1.nodup List.nodup_range

/-- The first of the queue leaves. -/
theorem rank_tail {s s' : Sys} {os : List Out} (h : GInv s os) (r : Req) (hq : s.queue = r :: s'.queue) (n : Nat)
    (hn : n ∈ s.queue.map (·.serial)) : s'.rank n < s.rank n := by
  have nd := queue_nodup h
  rw [hq] at nd hn
  have e1 : s.rank n = 3 + ((r :: s'.queue).map (·.serial)).idxOf n := by
    unfold Sys.rank
    rw [hq, if_pos hn]
  rw [e1]
  simp only [List.map_cons, List.nodup_cons] at nd
  by_cases e : r.serial = n
  · have : n ∉ s'.queue.map (·.serial) := by rw [← e]; exact nd.1
    have := rank_le_two this
    omega
  · have hm : n ∈ s'.queue.map (·.serial) := by
      rcases List.mem_cons.1 hn with h | h
      · exact absurd h.symm e
      · exact h
    have e2 : s'.rank n = 3 + (s'.queue.map (·.serial)).idxOf n := by
      unfold Sys.rank
      rw [if_pos hm]
    rw [e2, List.map_cons, List.idxOf_cons]
    have : (r.serial == n) = false := by simpa using e
    rw [this]
    simp only [cond_false]
    omega

/-- Nothing goes back. -/
theorem rank_mono {s s' : Sys} {os os' : List Out} (h : GInv s os) (m : Move s s' os') (n : Nat) (hlt : n < s.next) : s'.rank n ≤ s.rank n := by
  cases m with
  | keep hq ht hk hn hr hd ho h1 h2 h3 =>
    unfold Sys.rank
    rw [hq, ht, hk]
    split
    · exact Nat.le_refl _
    · split
      · exact Nat.le_refl _
      · split
        · rename_i hx
          have : s.up.open_.any (fun r => s.taken[r]? == some (some n)) = true := by
            rw [List.any_eq_true] at hx ⊢
            obtain ⟨r, a, b⟩ := hx
            exact ⟨r, ho r a, b⟩
          rw [this]
          exact Nat.le_refl _
        · exact Nat.zero_le _
  | ask r hs hl hq ht hk hn hu ho =>
    unfold Sys.rank
    rw [hq, ht, hk, hu, List.map_append]
    have hne : n ≠ r.serial := by omega
    by_cases hm : n ∈ s.queue.map (·.serial)
    · rw [if_pos (List.mem_append_left _ hm), if_pos hm, List.idxOf_append, if_pos hm]
      exact Nat.le_refl _
    · have : n ∉ s.queue.map (·.serial) ++ [r].map (·.serial) := by
        intro hx
        rcases List.mem_append.1 hx with hx | hx
        · exact hm hx
        · exact hne (List.mem_singleton.1 hx)
      rw [if_neg this, if_neg hm]
      exact Nat.le_refl _
  | drop hw hq ht hk hn hu h1 h2 h3 =>
    by_cases hm : n ∈ s.queue.map (·.serial)
    · have a : s'.rank n ≤ 2 := rank_le_two (by rw [hq]; exact nofun)
      have b : s.rank n ≥ 3 := by unfold Sys.rank; rw [if_pos hm]; omega
      omega
    · unfold Sys.rank
      rw [if_neg hm, hq, ht, hk, hu]
      simp
  | pass r hq ht he hd hk hn hu ho =>
    by_cases hm : n ∈ s.queue.map (·.serial)
    · exact Nat.le_of_lt (rank_tail h r hq n hm)
    · have hm' : n ∉ s'.queue.map (·.serial) := by
        intro hx; apply hm; rw [hq]; exact List.mem_cons_of_mem _ hx
      have hne : ¬ (some r.serial = some n) := by
        intro hx; cases hx; apply hm; rw [hq]; exact List.mem_cons_self ..
      unfold Sys.rank
      rw [if_neg hm, if_neg hm', ht, he, hk, hu]
      simp only [List.nil_append, List.any_cons, List.any_nil, Bool.or_false, beq_iff_eq, hne, if_false, Bool.false_eq_true]
      exact Nat.le_refl _
  | refuse r hq ht hk hn hu ho =>
    by_cases hm : n ∈ s.queue.map (·.serial)
    · exact Nat.le_of_lt (rank_tail h r hq n hm)
    · have hm' : n ∉ s'.queue.map (·.serial) := by
        intro hx; apply hm; rw [hq]; exact List.mem_cons_of_mem _ hx
      unfold Sys.rank
      rw [if_neg hm, if_neg hm', ht, hk, hu]
      exact Nat.le_refl _
  | server b hq ht he hd hk hn hu ho =>
    unfold Sys.rank
    rw [hq, ht, he, hk, hu]
    simp
  | take j rest bad ht hq ht' hk hn hu ho =>
    have hd : s.up.dead = false := by
      cases hx : s.up.dead with
      | false => rfl
      | true => have := h.dead hx; rw [ht] at this; cases this
    have hrest : rest = [] := by
      have d := h.cap
      rw [ht] at d
      simp only [List.length_cons] at d
      exact List.length_eq_zero_iff.1 (by omega)
    have ht2 : s'.trig = [] := by rw [ht', hrest]; split <;> rfl
    obtain ⟨u1, u2⟩ := trigger_open s.up j.buffers bad hd
    unfold Sys.rank
    rw [hq, ht2, ht, hrest]
    by_cases hm : n ∈ s.queue.map (·.serial)
    · rw [if_pos hm, if_pos hm]; exact Nat.le_refl _
    · rw [if_neg hm, if_neg hm]
      by_cases hj : j.src = some n
      · have e1 : ([j] : List Job).any (·.src == some n) = true := by simp [hj]
        rw [e1]
        simp only [List.any_nil, Bool.false_eq_true, if_false, if_true]
        split <;> omega
      · have e1 : ([j] : List Job).any (·.src == some n) = false := by simp [hj]
        rw [e1]
        simp only [List.any_nil, Bool.false_eq_true, if_false]
        split
        · rename_i hx
          have : s.up.open_.any (fun r => s.taken[r]? == some (some n)) = true := by
            rw [List.any_eq_true] at hx ⊢
            obtain ⟨r, a, b⟩ := hx
            rw [hu] at a
            rw [hk] at b
            rcases u2 r a with a | a
            · refine ⟨r, a, ?_⟩
              rwa [List.getElem?_append_left (h.opens r a)] at b
            · rw [a, ← h.taken hd] at b
              simp at b
              exact absurd b hj
          rw [this]
          exact Nat.le_refl _
        · exact Nat.zero_le _
  | stop hq ht hk hn hu ho =>
    unfold Sys.rank
    rw [hq, ht, hk, hu]
    split
    · exact Nat.le_refl _
    · simp only [List.any_nil, Bool.false_eq_true, if_false]
      split
      · rename_i hx
        split
        · omega
        · exact Nat.le_refl _
      · exact Nat.zero_le _

theorem index_unique (n : Nat) : ∀ (l : List (Option Nat)), (l.filterMap id).Nodup → ∀ i j : Nat, l[i]? = some (some n) → l[j]? = some (some n) → i = j := by
  intro l
  induction l with
  | nil => intro _ i j hi; simp at hi
  | cons x l ih =>
    intro nd i j hi hj
    have nd' : (l.filterMap id).Nodup := by
      cases x with
      | none => simpa using nd
      | some y => simp only [List.filterMap_cons, id] at nd; exact (List.nodup_cons.1 nd).2
    have key : ∀ k : Nat, (x :: l)[0]? = some (some n) → l[k]? = some (some n) → False := by
      intro k h0 hk
      simp only [List.getElem?_cons_zero, Option.some.injEq] at h0
      subst h0
      simp only [List.filterMap_cons, id] at nd
      apply (List.nodup_cons.1 nd).1
      exact List.mem_filterMap.2 ⟨some n, List.mem_of_getElem? hk, rfl⟩
    cases i with
    | zero =>
      cases j with
      | zero => rfl
      | succ j => exact (key j hi (by simpa using hj)).elim
    | succ i =>
      cases j with
      | zero => exact (key i hj (by simpa using hi)).elim
      | succ j => exact congrArg _ (ih nd' i j (by simpa using hi) (by simpa using hj))

/-- C113, every request gets somewhere.  In every reachable state, for every request sent before: no step moves it backwards; taking the
branch of the pipeline moves it forward while it is in the channel of the engine, the uploader taking a request moves it forward
while it is in the channel to the uploader, and once the uploader has it, it is over when the uploads for it have ended and it is answered.
The engine takes it as over exactly when it is at the end (`rank_open`). -/
theorem C113_progress (w f : Bool) (es : List Ev) (r : Req) :
    let s := ((Sys.init w f).run es).1
    r ∈ askedOf ((Sys.init w f).run es).2 →
    (s.isOpen r.serial = true ↔ s.rank r.serial ≠ 0) ∧ s.rank r.serial ≤ 12 ∧
    (∀ e, (s.step e).1.rank r.serial ≤ s.rank r.serial) ∧
    (3 ≤ s.rank r.serial → (s.step .pass).1.rank r.serial < s.rank r.serial) ∧
    (s.rank r.serial = 2 → ∀ bad, (s.step (.take bad)).1.rank r.serial < 2) ∧
    (s.rank r.serial = 1 → ∃ i, i ∈ s.up.open_ ∧ s.taken[i]? = some (some r.serial) ∧
      ((∀ b, (i, b) ∉ s.up.running) → (s.step (.answer i)).1.rank r.serial = 0)) := by
  intro s hr
  have h : GInv s ((Sys.init w f).run es).2 := by
    have := GInv.run es (GInv.init w f)
    rwa [List.nil_append] at this
  have hlt : r.serial < s.next := by
    have : r.serial ∈ (askedOf ((Sys.init w f).run es).2).map (·.serial) := List.mem_map_of_mem hr
    rw [h.serials] at this
    exact List.mem_range.1 this
  generalize ((Sys.init w f).run es).2 = os at h hr
  have hm3 : 3 ≤ s.rank r.serial → r.serial ∈ s.queue.map (·.serial) := by
    intro h3
    by_cases hm : r.serial ∈ s.queue.map (·.serial)
    · exact hm
    · have := rank_le_two hm; omega
  refine ⟨rank_open s r.serial, ?_, fun e => rank_mono h (step_move s e) r.serial hlt, ?_, ?_, ?_⟩
  · by_cases hm : r.serial ∈ s.queue.map (·.serial)
    · have := List.idxOf_lt_length_of_mem hm
      rw [List.length_map] at this
      have := h.len
      unfold Sys.rank
      rw [if_pos hm]
      omega
    · have := rank_le_two hm; omega
  · intro h3
    have hm := hm3 h3
    cases hl : s.line with
    | none => simp [Sys.queue, hl] at hm
    | some l =>
      cases hq : l.rx with
      | none => simp [Sys.queue, hl, hq] at hm
      | some q =>
        cases q with
        | nil => simp [Sys.queue, hl, hq] at hm
        | cons x q =>
          refine rank_tail h x ?_ r.serial hm
          simp only [Sys.step, hl, Sys.passOn, hq]
          split <;> simp [Sys.queue, hl, hq]
  · intro h2 bad
    have hm : r.serial ∉ s.queue.map (·.serial) := by
      intro hm
      unfold Sys.rank at h2
      rw [if_pos hm] at h2
      omega
    cases ht : s.trig with
    | nil =>
      unfold Sys.rank at h2
      rw [if_neg hm, ht] at h2
      simp only [List.any_nil, Bool.false_eq_true, if_false] at h2
      split at h2 <;> omega
    | cons j rest =>
      have hrest : rest = [] := by
        have d := h.cap
        rw [ht] at d
        simp only [List.length_cons] at d
        exact List.length_eq_zero_iff.1 (by omega)
      have e1 : (s.step (.take bad)).1.queue = s.queue := by simp [Sys.step, ht, Sys.queue]
      have e2 : (s.step (.take bad)).1.trig = [] := by simp [Sys.step, ht, hrest]
      unfold Sys.rank
      rw [e1, if_neg hm, e2]
      simp only [List.any_nil, Bool.false_eq_true, if_false]
      split <;> omega
  · intro h1
    have hm : r.serial ∉ s.queue.map (·.serial) := by
      intro hm
      unfold Sys.rank at h1
      rw [if_pos hm] at h1
      omega
    unfold Sys.rank at h1
    rw [if_neg hm] at h1
    split at h1
    · omega
    · rename_i ht
      split at h1
      · rename_i ho
        obtain ⟨i, hi, hx⟩ := List.any_eq_true.1 ho
        have hx' : s.taken[i]? = some (some r.serial) := by simpa using hx
        refine ⟨i, hi, hx', fun hrun => ?_⟩
        have nd : (s.taken.filterMap id).Nodup := by
          rw [h.ids]
          have a1 : ((tookOf os).map (·.1)).Sublist (((askedOf os).map Req.pair).map (·.1)) := by
            have := h.took
            rw [List.append_assoc] at this
            exact ((List.sublist_append_left _ _).trans this).map _
          have a2 : ((askedOf os).map Req.pair).map (·.1) = (askedOf os).map (·.serial) := by simp [Req.pair, Function.comp_def]
          rw [a2, h.serials] at a1
          exact a1.nodup List.nodup_range
        have hno : s.up.running.any (fun x => x.1 == i) = false := by
          cases hc : s.up.running.any (fun x => x.1 == i) with
          | false => rfl
          | true =>
            obtain ⟨⟨a, b⟩, hab, he⟩ := List.any_eq_true.1 hc
            have : a = i := by simpa using he
            subst this
            exact absurd hab (hrun b)
        unfold Sys.rank
        simp only [Sys.step, hno, Bool.false_eq_true, if_false]
        have e1 : ({ s with up := { s.up with open_ := s.up.open_.filter (· ≠ i) } } : Sys).queue = s.queue := rfl
        rw [e1, if_neg hm, if_neg ht]
        split
        · rename_i hy
          obtain ⟨k, hk, hy'⟩ := List.any_eq_true.1 hy
          have hk' := List.mem_filter.1 hk
          have : k = i := index_unique r.serial s.taken nd k i (by simpa using hy') hx'
          simp [this] at hk'
        · rfl
      · omega

/-! ### As long as workflows are not switched off -/

/-- Always on: one engine, and everything it asked for is accounted for. -/
structure KInv (s : Sys) (os : List Out) : Prop where
  on : s.wf.value = true
  eng : ∀ l, s.line = some l → l.engine.isSome = true
  noline : s.line = none → askedOf os = []
  kept : handedOf os ++ s.queue = askedOf os
  one : ∀ r ∈ askedOf os, s.isOpen r.serial = true →
    ∃ l g, s.line = some l ∧ l.engine = some g ∧ g.waiting.lookup r.action = some r.serial

theorem lookup_filter_ne (a b : Nat) (h : a ≠ b) : ∀ l : List (Nat × Nat), (l.filter fun x => x.1 ≠ b).lookup a = l.lookup a := by
  intro l
  induction l with
  | nil => rfl
  | cons x l ih =>
    obtain ⟨k, v⟩ := x
    by_cases hk : k = b
    · subst hk
      simp only [List.filter_cons, ne_eq, not_true, decide_false, Bool.false_eq_true, if_false, List.lookup_cons]
      have : (a == k) = false := by simpa using h
      rw [this]
      exact ih
    · simp only [List.filter_cons, ne_eq, hk, not_false_iff, decide_true, if_true, List.lookup_cons]
      split
      · rfl
      · exact ih

theorem KInv.step {s : Sys} {os : List Out} (h : KInv s os) (gi : GInv s os) (e : Ev) (he : ∀ w f, e = .runtime w f → w = true) :
    KInv (s.step e).1 (os ++ (s.step e).2) := by
  obtain ⟨h1, h2, h3, h4, h5⟩ := h
  have hv : (s.step e).1.wf.value = true := by
    rw [step_wf]
    cases e with
    | runtime w f => exact he w f rfl
    | _ => exact h1
  -- an engine stays
  have hg : (∀ l, (s.step e).1.line = some l → l.engine.isSome = true) ∧
      ((∀ a bufs, e ≠ .approved a bufs) → ∀ l g, s.line = some l → l.engine = some g →
        ∃ l' g', (s.step e).1.line = some l' ∧ l'.engine = some g' ∧ g'.waiting = g.waiting) := by
    cases e with
    | runtime w f => exact ⟨h2, fun _ l g hl hg => ⟨l, g, hl, hg, rfl⟩⟩
    | config c =>
      simp only [Sys.step]
      cases hl : s.line with
      | none => exact ⟨fun l hl' => by cases hl'; simp [Line.new, h1], nofun⟩
      | some l =>
        cases hg : l.engine with
        | none => have := h2 l hl; rw [hg] at this; cases this
        | some g =>
          refine ⟨fun l' hl' => ?_, fun _ l' g' hl' hg' => ?_⟩
          · cases hl'; simp [Line.update, h1, hg]
          · cases hl'
            rw [hg] at hg'
            cases hg'
            exact ⟨_, { g with cfg := c }, rfl, by simp [Line.update, h1, hg], rfl⟩
    | log n =>
      simp only [Sys.step]
      cases hl : s.line with
      | none => exact ⟨fun l hl' => (by cases hl'), nofun⟩
      | some l => exact ⟨h2, fun _ l' g hl' hg => ⟨l', g, by cases hl'; exact hl, hg, rfl⟩⟩
    | approved a bufs =>
      refine ⟨?_, fun hne => absurd rfl (hne a bufs)⟩
      simp only [Sys.step]
      cases hl : s.line with
      | none => exact h2
      | some l =>
        dsimp only
        cases hg : l.engine with
        | none => exact h2
        | some g =>
          dsimp only
          unfold Sys.approve
          repeat' split
          all_goals first | exact h2 | exact fun l' hl' => (by cases hl'; rfl)
    | pass =>
      simp only [Sys.step]
      cases hl : s.line with
      | none => exact ⟨h2, nofun⟩
      | some l =>
        dsimp only
        unfold Sys.passOn
        split
        · dsimp only
          split <;> exact ⟨fun l' hl' => by cases hl'; exact h2 l hl, fun _ l' g hl' hg => ⟨_, g, rfl, by cases hl'; exact hg, rfl⟩⟩
        · exact ⟨h2, fun _ l' g hl' hg => ⟨l', g, by cases hl'; exact hl, hg, rfl⟩⟩
    | seeWorkflows =>
      simp only [Sys.step]
      cases hl : s.line with
      | none => exact ⟨h2, nofun⟩
      | some l =>
        dsimp only
        split
        · exact ⟨h2, fun _ l' g hl' hg => ⟨l', g, by cases hl'; exact hl, hg, rfl⟩⟩
        · exact ⟨fun l' hl' => by cases hl'; simpa [h1] using h2 l hl,
            fun _ l' g hl' hg => ⟨_, g, rfl, by cases hl'; simpa [h1] using hg, rfl⟩⟩
    | seeFilters =>
      simp only [Sys.step]
      cases hl : s.line with
      | none => exact ⟨h2, nofun⟩
      | some l =>
        dsimp only
        split
        · exact ⟨h2, fun _ l' g hl' hg => ⟨l', g, by cases hl'; exact hl, hg, rfl⟩⟩
        · exact ⟨fun l' hl' => by cases hl'; exact h2 l hl,
            fun _ l' g hl' hg => ⟨_, g, rfl, by cases hl'; exact hg, rfl⟩⟩
    | idle =>
      simp only [Sys.step]
      cases hl : s.line with
      | none => exact ⟨h2, nofun⟩
      | some l =>
        dsimp only
        split <;> exact ⟨h2, fun _ l' g hl' hg => ⟨l', g, by cases hl'; exact hl, hg, rfl⟩⟩
    | server bufs =>
      simp only [Sys.step]
      split <;> exact ⟨h2, fun _ l g hl hg => ⟨l, g, hl, hg, rfl⟩⟩
    | take bad =>
      simp only [Sys.step]
      split <;> exact ⟨h2, fun _ l g hl hg => ⟨l, g, hl, hg, rfl⟩⟩
    | up e =>
      simp only [Sys.step]
      split <;> exact ⟨h2, fun _ l g hl hg => ⟨l, g, hl, hg, rfl⟩⟩
    | answer r =>
      simp only [Sys.step]
      split <;> exact ⟨h2, fun _ l g hl hg => ⟨l, g, hl, hg, rfl⟩⟩
    | stop => exact ⟨h2, fun _ l g hl hg => ⟨l, g, hl, hg, rfl⟩⟩
  have hnone : (s.step e).1.line = none → s.line = none := by
    intro hx
    have e1 := step_cfg s e
    rw [hx] at e1
    cases hl : s.line with
    | none => rfl
    | some l => rw [hl] at e1; cases e <;> cases e1
  have hlt : ∀ r ∈ askedOf os, r.serial < s.next := by
    intro r hr
    have : r.serial ∈ (askedOf os).map (·.serial) := List.mem_map_of_mem hr
    rw [gi.serials] at this
    exact List.mem_range.1 this
  have mono : ∀ r ∈ askedOf os, (s.step e).1.isOpen r.serial = true → s.isOpen r.serial = true := by
    intro r hr ho
    have := rank_mono gi (step_move s e) r.serial (hlt r hr)
    have h0 := (rank_open _ _).1 ho
    exact (rank_open _ _).2 (by omega)
  have hm := step_move s e
  have kept : handedOf (os ++ (s.step e).2) ++ (s.step e).1.queue = askedOf (os ++ (s.step e).2) := by
    rw [handedOf_append, askedOf_append, ← h4]
    cases hm with
    | keep hq ht hk hn hr hd ho x1 x2 x3 => rw [x1, x2, hq]; simp
    | ask r hs hl hq ht hk hn hu ho => rw [ho, hq]; simp [handedOf, askedOf]
    | drop hw hq ht hk hn hu x1 x2 x3 =>
      have hq0 : s.queue = [] := by
        rcases hw with hw | ⟨l, hl, hg'⟩
        · unfold Sys.queue; rw [hw]; rfl
        · have := h2 l hl; rw [hg'] at this; cases this
      rw [x1, x2, hq, hq0]
    | pass r hq ht he' hd hk hn hu ho => rw [ho, hq]; simp [handedOf, askedOf]
    | refuse r hq ht hk hn hu ho => rw [ho, hq]; simp [handedOf, askedOf]
    | server bf hq ht he' hd hk hn hu ho => rw [ho, hq]; simp [handedOf, askedOf]
    | take j rest bad ht hq ht' hk hn hu ho => rw [ho, hq]; simp [handedOf, askedOf]
    | stop hq ht hk hn hu ho => rw [ho, hq]; simp [handedOf, askedOf]
  refine ⟨hv, hg.1, ?_, kept, ?_⟩
  · intro hx
    have h0 := hnone hx
    rw [askedOf_append, h3 h0, List.nil_append]
    cases e with
    | config c => simp [Sys.step, h0] at hx
    | server bufs => simp only [Sys.step]; split <;> rfl
    | take bad => simp only [Sys.step]; split <;> rfl
    | up e => simp only [Sys.step]; split <;> rfl
    | answer r => simp only [Sys.step]; split <;> rfl
    | _ => simp [Sys.step, h0, askedOf]
  · intro r hr ho
    by_cases hap : ∃ a bufs, e = .approved a bufs
    · obtain ⟨a, bufs, rfl⟩ := hap
      simp only [Sys.step] at hr ho mono ⊢
      cases hl : s.line with
      | none =>
        rw [hl] at hr ho
        dsimp only at hr ho
        rw [List.append_nil] at hr
        rw [h3 hl] at hr
        cases hr
      | some l =>
        rw [hl] at hr ho mono
        dsimp only at hr ho mono ⊢
        cases hgg : l.engine with
        | none => have := h2 l hl; rw [hgg] at this; cases this
        | some g =>
          rw [hgg] at hr ho mono
          dsimp only at hr ho mono ⊢
          unfold Sys.approve at hr ho mono ⊢
          split at hr
          · rename_i hopen
            simp only [hopen, if_true] at ho ⊢
            rw [List.append_nil] at hr
            obtain ⟨l', g', x1, x2, x3⟩ := h5 r hr ho
            exact ⟨l', g', x1, x2, x3⟩
          · rename_i hopen
            simp only [hopen] at ho mono ⊢
            -- no request of this action is open
            have hnot : ∀ r' ∈ askedOf os, r'.action = a → s.isOpen r'.serial = true → False := by
              intro r' hr' ha ho'
              obtain ⟨l', g', x1, x2, x3⟩ := h5 r' hr' ho'
              rw [hl] at x1
              cases x1
              rw [hgg] at x2
              cases x2
              rw [ha] at x3
              apply hopen
              rw [x3]
              exact ho'
            have old : ∀ r' ∈ askedOf os, s.isOpen r'.serial = true → r'.action ≠ a ∧ g.waiting.lookup r'.action = some r'.serial := by
              intro r' hr' ho'
              refine ⟨fun ha => hnot r' hr' ha ho', ?_⟩
              obtain ⟨l', g', x1, x2, x3⟩ := h5 r' hr' ho'
              rw [hl] at x1
              cases x1
              rw [hgg] at x2
              cases x2
              exact x3
            cases hq : l.rx with
            | none =>
              rw [hq] at hr ho mono
              dsimp only at hr ho mono ⊢
              have hr' : r ∈ askedOf os := by simpa [askedOf_append, askedOf] using hr
              obtain ⟨y1, y2⟩ := old r hr' (mono r hr' ho)
              exact ⟨_, _, rfl, rfl, by dsimp only; rw [lookup_filter_ne _ _ y1]; exact y2⟩
            | some q =>
              rw [hq] at hr ho mono
              dsimp only at hr ho mono ⊢
              split at hr
              · rename_i hlen
                simp only [hlen, if_true] at ho mono ⊢
                rw [askedOf_append] at hr
                rcases List.mem_append.1 hr with hr' | hr'
                · obtain ⟨y1, y2⟩ := old r hr' (mono r hr' ho)
                  refine ⟨_, _, rfl, rfl, ?_⟩
                  dsimp only [setWaiting]
                  rw [List.lookup_cons]
                  have : (r.action == a) = false := by simpa using y1
                  rw [this]
                  dsimp only
                  rw [lookup_filter_ne _ _ y1]
                  exact y2
                · have er : r = ⟨s.next, a, bufs⟩ := by simpa [askedOf] using hr'
                  subst er
                  refine ⟨_, _, rfl, rfl, ?_⟩
                  simp [setWaiting, List.lookup_cons]
              · rename_i hlen
                simp only [hlen, if_false] at ho mono ⊢
                have hr' : r ∈ askedOf os := by simpa [askedOf_append, askedOf] using hr
                obtain ⟨y1, y2⟩ := old r hr' (mono r hr' ho)
                exact ⟨_, _, rfl, rfl, by dsimp only; rw [lookup_filter_ne _ _ y1]; exact y2⟩
    · have hne : ∀ a bufs, e ≠ .approved a bufs := fun a bufs hx => hap ⟨a, bufs, hx⟩
      have hr' : r ∈ askedOf os := by
        rw [askedOf_append] at hr
        rcases List.mem_append.1 hr with hr | hr
        · exact hr
        · exfalso
          cases e with
          | approved a bufs => exact hne a bufs rfl
          | config c =>
            simp only [Sys.step] at hr
            split at hr
            · rw [(logs_no_requests _ _).1] at hr; cases hr
            · cases hr
          | pass =>
            simp only [Sys.step, Sys.passOn] at hr
            repeat' split at hr
            all_goals cases hr
          | _ =>
            simp only [Sys.step] at hr
            try (repeat' split at hr)
            all_goals (first | (cases hr; done) | (simp [askedOf, Line.process] at hr; done))
      obtain ⟨l, g, x1, x2, x3⟩ := h5 r hr' (mono r hr' ho)
      obtain ⟨l', g', y1, y2, y3⟩ := hg.2 hne l g x1 x2
      exact ⟨l', g', y1, y2, by rw [y3]; exact x3⟩

theorem KInv.run (es : List Ev) (hr : ∀ w f, .runtime w f ∈ es → w = true) : ∀ {s : Sys} {os : List Out}, KInv s os → GInv s os →
    KInv (s.run es).1 (os ++ (s.run es).2) := by
  induction es with
  | nil => intro s os h _; simpa [Sys.run] using h
  | cons e es ih =>
    intro s os h gi
    have := ih (fun w f hm => hr w f (List.mem_cons_of_mem _ hm)) (h.step gi e (fun w f he => hr w f (by rw [he]; simp))) (gi.move (step_move s e))
    simpa [Sys.run, List.append_assoc] using this

theorem KInv.init (f : Bool) : KInv (Sys.init true f) [] := ⟨rfl, nofun, fun _ => rfl, rfl, nofun⟩

/-- C113, nothing is lost: every request of the engine was given to the uploader, was refused and counted, or is still in the channel; and a new
request for an action is sent only when the last one is over.

The full statement is without the condition that workflows were never switched off.  Missing: switched off and on again there is a new
engine with a new channel, requests in the old one are lost (`C113_kept_violated`), and the new engine does not know of the requests of the old
one (`C113_one_violated`). -/
theorem C113_kept_partial (f : Bool) (es : List Ev) (hon : ∀ w' f', .runtime w' f' ∈ es → w' = true) :
    let s := ((Sys.init true f).run es).1
    let os := ((Sys.init true f).run es).2
    handedOf os ++ s.queue = askedOf os ∧
    ∀ e r r', r ∈ askedOf os → Out.asked r' ∈ (s.step e).2 → r'.action = r.action → s.isOpen r.serial = false := by
  intro s os
  have gi : GInv s os := by
    have := GInv.run es (GInv.init true f)
    rwa [List.nil_append] at this
  have h : KInv s os := by
    have := KInv.run es hon (KInv.init f) (GInv.init true f)
    rwa [List.nil_append] at this
  refine ⟨h.kept, fun e r r' hr hr' ha => ?_⟩
  cases ho : s.isOpen r.serial with
  | false => rfl
  | true =>
    exfalso
    obtain ⟨l, g, x1, x2, x3⟩ := h.one r hr ho
    have key : ∀ os', Out.asked r' ∈ os' → r' ∈ askedOf os' := fun os' hm => List.mem_filterMap.2 ⟨_, hm, rfl⟩
    cases e with
    | approved a bufs =>
      simp only [Sys.step, x1, x2, Sys.approve] at hr'
      split at hr'
      · cases hr'
      · rename_i hopen
        have hra : r'.action = a := by
          split at hr'
          · split at hr'
            · have := List.mem_singleton.1 hr'
              cases this
              rfl
            · have := List.mem_singleton.1 hr'
              cases this
          · have := List.mem_singleton.1 hr'
            cases this
        apply hopen
        rw [← hra, ha, x3]
        exact ho
    | config c =>
      have := key _ hr'
      simp only [Sys.step, x1] at this
      cases this
    | pass =>
      simp only [Sys.step, x1, Sys.passOn] at hr'
      split at hr'
      · split at hr'
        · have := List.mem_singleton.1 hr'; cases this
        · have := List.mem_singleton.1 hr'; cases this
      · cases hr'
    | _ =>
      simp only [Sys.step] at hr'
      try (repeat' split at hr')
      all_goals first
        | (cases hr'; done)
        | (have := List.mem_singleton.1 hr'; simp [Line.process] at this; done)

/-- C113, a request is lost: the engine asked for a flush, workflows were switched off and on, a configuration came: the request was neither
given to the uploader nor counted nor is it in the channel. -/
theorem C113_kept_violated :
    let es : List Ev := [.config 1, .approved 5 [0], .runtime false true, .seeWorkflows, .runtime true true, .config 2]
    let s := ((Sys.init true true).run es).1
    let os := ((Sys.init true true).run es).2
    askedOf os = [⟨0, 5, [0]⟩] ∧ handedOf os = [] ∧ s.queue = [] := by decide

/-- C113, two requests for one action at the same time, of two engines. -/
theorem C113_one_violated :
    let es : List Ev := [.config 1, .up (.created 0), .approved 5 [0], .pass, .take [], .runtime false true, .seeWorkflows, .runtime true true, .config 2]
    let s := ((Sys.init true true).run es).1
    let os := ((Sys.init true true).run es).2
    ⟨0, 5, [0]⟩ ∈ askedOf os ∧ s.isOpen 0 = true ∧ Out.asked ⟨1, 5, [0]⟩ ∈ (s.step (.approved 5 [0])).2 := by decide

/-- Three requests: one is uploaded and over, one is refused because the channel is full, one is waiting; a second approval of the action waiting is
not sent. -/
example :
    let es : List Ev := [.config 1, .up (.created 0), .approved 5 [0], .pass, .take [], .up (.finish 0 0), .answer 0, .server [3],
      .approved 6 [1], .pass, .approved 5 [0], .approved 5 [0]]
    let s := ((Sys.init true true).run es).1
    let os := ((Sys.init true true).run es).2
    askedOf os = [⟨0, 5, [0]⟩, ⟨1, 6, [1]⟩, ⟨2, 5, [0]⟩] ∧ handedOf os = [⟨0, 5, [0]⟩, ⟨1, 6, [1]⟩] ∧ tookOf os = [(0, [0])] ∧
    s.rank 0 = 0 ∧ s.rank 1 = 0 ∧ s.rank 2 = 3 := by decide

/-- The stages of one request. -/
example :
    let es : List Ev := [.config 1, .up (.created 0), .approved 4 [0], .approved 5 [0]]
    let s := ((Sys.init true true).run es).1
    s.rank 1 = 4 ∧ (s.run [.pass]).1.rank 1 = 3 ∧ (s.run [.pass, .take [], .pass]).1.rank 1 = 2 ∧
    (s.run [.pass, .take [], .pass, .take []]).1.rank 1 = 1 ∧ (s.run [.pass, .take [], .pass, .take [], .answer 1]).1.rank 1 = 0 := by decide

end Verif.Switch
