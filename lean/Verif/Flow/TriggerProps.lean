import Verif.Flow.Trigger

/-
C84: triggered and streamed uploads.
-/
namespace Verif.Flow

open Verif.Upload (Entry Builder Limits UpResult)

/-- Everything not lost and not old, oldest first. -/
def TF.line (s : TF) : List Entry := s.uploads.flatMap (·.1) ++ (s.holds ++ (s.file ++ s.vol))

structure TF.Inv (s : TF) : Prop where
  order : s.line.Sublist s.accepted
  perm : s.accepted.Perm (s.lost.map (·.2) ++ s.old ++ s.line)
  locked : s.task.isSome → s.vol = []
  /-- while uploading nothing else is collected, and never nothing is uploaded -/
  up : ∀ t logs last, s.task = some t → t.phase = .uploading logs last → t.builder = .empty ∧ logs ≠ [] ∧ (last = true → s.file = [])

theorem TF.inv_init : TF.init.Inv := ⟨.slnil, .nil, fun _ => rfl, fun _ _ _ h => nomatch h⟩

theorem limit_nonempty {b : Builder} {l : Limits} (h : b.limitReached l = true) : b.logs ≠ [] := by
  unfold Builder.limitReached at h
  split at h
  · cases h
  · rename_i h2; simpa using h2

theorem map_pair {α β : Type} (a : α) (l : List β) : (l.map fun x => (a, x)).map (·.2) = l := by
  simp [Function.comp_def]

theorem TF.Inv.read {s : TF} (h : s.Inv) {t : Task} (ht : s.task = some t) (hp : t.phase = .reading) : (s.read t).Inv := by
  have hh : s.holds = t.builder.logs := by simp [TF.holds, ht, Task.holds, hp]
  have hv : s.vol = [] := h.locked (by rw [ht]; rfl)
  unfold TF.read
  split
  · rename_i hf
    split
    · rename_i he
      have he' : t.builder.logs = [] := by simpa using he
      have hl : TF.line { s with task := none } = s.line := by
        simp only [TF.line, hh, he']; rfl
      exact ⟨by rw [hl]; exact h.order, by rw [hl]; exact h.perm, (fun x => nomatch x), (fun _ _ _ x => nomatch x)⟩
    · rename_i he
      have hl : TF.line { s with task := some { t with builder := .empty, phase := .uploading t.builder.logs true } } = s.line := by
        simp only [TF.line, hh]
        simp [TF.holds, Task.holds, Builder.empty]
      refine ⟨by rw [hl]; exact h.order, by rw [hl]; exact h.perm, fun _ => hv, ?_⟩
      intro t' logs last h1 h2
      simp only [Option.some.injEq] at h1
      subst h1
      simp only [TPhase.uploading.injEq] at h2
      exact ⟨rfl, by rw [← h2.1]; simpa using he, fun _ => hf⟩
  · rename_i e es hf
    have hline : s.line = s.uploads.flatMap (·.1) ++ (t.builder.logs ++ (e :: (es ++ s.vol))) := by
      simp [TF.line, hh, hf]
    split
    · refine ⟨?_, ?_, fun _ => hv, ?_⟩
      · refine List.Sublist.trans ?_ h.order
        rw [hline]
        have : TF.line { s with file := es, old := s.old ++ [e] } = s.uploads.flatMap (·.1) ++ (t.builder.logs ++ (es ++ s.vol)) := by
          simp only [TF.line]
          have : TF.holds { s with file := es, old := s.old ++ [e] } = s.holds := rfl
          rw [this, hh]
        rw [this]
        exact ((List.sublist_cons_self _ _).append_left _).append_left _
      · have hx : TF.line { s with file := es, old := s.old ++ [e] } = s.uploads.flatMap (·.1) ++ (t.builder.logs ++ (es ++ s.vol)) := by
          simp only [TF.line]
          have : TF.holds { s with file := es, old := s.old ++ [e] } = s.holds := rfl
          rw [this, hh]
        rw [hx]
        refine h.perm.trans ?_
        rw [hline, List.perm_iff_count]
        intro a
        simp only [List.count_append, List.count_cons, List.count_nil]
        omega
      · intro t' logs last h1 h2
        have h1' : s.task = some t' := h1
        rw [ht] at h1'
        cases h1'
        rw [hp] at h2
        cases h2
    · simp only
      split
      · rename_i hlim
        have hl : TF.line { s with file := es, task := some { t with builder := .empty, phase := .uploading (t.builder.add e).logs false } } = s.line := by
          rw [hline]
          simp [TF.line, TF.holds, Task.holds, Builder.empty, Builder.add]
        refine ⟨by rw [hl]; exact h.order, by rw [hl]; exact h.perm, fun _ => hv, ?_⟩
        intro t' logs last h1 h2
        simp only [Option.some.injEq] at h1
        subst h1
        simp only [TPhase.uploading.injEq] at h2
        refine ⟨rfl, by rw [← h2.1]; exact limit_nonempty hlim, ?_⟩
        intro h3; rw [← h2.2] at h3; cases h3
      · have hl : TF.line { s with file := es, task := some { t with builder := t.builder.add e } } = s.line := by
          rw [hline]
          simp [TF.line, TF.holds, Task.holds, hp, Builder.add]
        refine ⟨by rw [hl]; exact h.order, by rw [hl]; exact h.perm, fun _ => hv, ?_⟩
        intro t' logs last h1 h2
        simp only [Option.some.injEq] at h1
        subst h1
        rw [hp] at h2
        cases h2

theorem TF.Inv.step {s : TF} (h : s.Inv) (e : TEv) : (s.step e).Inv := by
  cases e with
  | write e =>
    simp only [TF.step]
    split
    · exact h
    · have hl : TF.line { s with vol := s.vol ++ [e], accepted := s.accepted ++ [e] } = s.line ++ [e] := by
        have : TF.holds { s with vol := s.vol ++ [e], accepted := s.accepted ++ [e] } = s.holds := rfl
        simp [TF.line, this]
      rename_i hn
      refine ⟨by rw [hl]; exact h.order.append (List.Sublist.refl _), ?_, fun x => absurd x hn, h.up⟩
      rw [hl, ← List.append_assoc]
      exact h.perm.append_right _
  | move k =>
    simp only [TF.step]
    split
    · exact h
    · rename_i e es hv
      have hn : ¬ s.task.isSome := by intro hx; rw [h.locked hx] at hv; cases hv
      have hh : ∀ (a b : List Entry) (c : List (TReason × Entry)), TF.holds { s with vol := a, file := b, lost := c } = s.holds :=
        fun _ _ _ => rfl
      refine ⟨?_, ?_, fun x => absurd x hn, fun t _ _ h1 _ => absurd (by rw [show s.task = some t from h1]; rfl) hn⟩
      · refine List.Sublist.trans ?_ h.order
        simp only [TF.line, hh, hv]
        refine List.Sublist.append_left (List.Sublist.append_left ?_ _) _
        rw [List.append_assoc]
        exact (List.drop_sublist k _).append (List.Sublist.refl _)
      · refine h.perm.trans ?_
        simp only [TF.line, hh, hv, List.map_append, map_pair]
        have hf : s.file = s.file.take k ++ s.file.drop k := (List.take_append_drop k _).symm
        rw [List.perm_iff_count]
        intro a
        have : s.file.count a = (s.file.take k).count a + (s.file.drop k).count a := by rw [← List.count_append, ← hf]
        simp only [List.count_append, List.count_cons, List.count_nil]
        omega
  | request w k =>
    simp only [TF.step]
    split
    · exact h
    · rename_i hn
      have hno : s.task = none := by simpa using hn
      have hh : s.holds = [] := by simp [TF.holds, hno]
      refine ⟨?_, ?_, fun _ => rfl, ?_⟩
      · refine List.Sublist.trans ?_ h.order
        simp only [TF.line, hh]
        refine List.Sublist.append_left ?_ _
        simp only [TF.holds, Task.holds, Builder.empty, List.nil_append, List.append_nil]
        exact List.drop_sublist _ _
      · refine h.perm.trans ?_
        have hnew : ∀ (a b : List Entry) (c : List (TReason × Entry)), TF.holds { s with vol := a, file := b, lost := c, task := some ⟨w, .empty, .reading⟩ } = [] :=
          fun _ _ _ => rfl
        simp only [TF.line, hh, hnew, List.map_append, map_pair, List.nil_append, List.append_nil]
        have hf : s.file ++ s.vol = (s.file ++ s.vol).take k ++ (s.file ++ s.vol).drop k := (List.take_append_drop k _).symm
        rw [List.perm_iff_count]
        intro a
        have : (s.file ++ s.vol).count a = ((s.file ++ s.vol).take k).count a + ((s.file ++ s.vol).drop k).count a := by
          rw [← List.count_append, ← hf]
        simp only [List.count_append] at this ⊢
        omega
      · intro t' logs last h1 h2
        simp only [Option.some.injEq] at h1
        subst h1
        cases h2
  | read =>
    simp only [TF.step]
    split
    · rename_i t ht
      split
      · rename_i hp; exact h.read ht hp
      · exact h
    · exact h
  | readError =>
    simp only [TF.step]
    split
    · rename_i t ht
      split
      · rename_i hp
        have hh : s.holds = t.builder.logs := by simp [TF.holds, ht, Task.holds, hp]
        refine ⟨?_, ?_, (fun x => nomatch x), (fun _ _ _ x => nomatch x)⟩
        · refine List.Sublist.trans ?_ h.order
          simp only [TF.line, hh]
          refine List.Sublist.append_left ?_ _
          simp [TF.holds]
        · refine h.perm.trans ?_
          simp only [TF.line, hh, List.map_append, map_pair]
          rw [List.perm_iff_count]
          intro a
          simp only [TF.holds, List.count_append, List.count_nil]
          omega
      · exact h
    · exact h
  | result r =>
    simp only [TF.step]
    split
    · rename_i t ht
      split
      · rename_i logs last hp
        obtain ⟨hb, hl, hf⟩ := h.up t logs last ht hp
        have hv : s.vol = [] := h.locked (by rw [ht]; rfl)
        have hh : s.holds = logs := by simp [TF.holds, ht, Task.holds, hp, hb, Builder.empty]
        have hline : TF.line { s with uploads := s.uploads ++ [(logs, r)], task := if last then none else some { t with phase := .reading } } = s.line := by
          have hnew : TF.holds { s with uploads := s.uploads ++ [(logs, r)], task := if last then none else some { t with phase := .reading } } = [] := by
            cases last <;> simp [TF.holds, Task.holds, hb, Builder.empty]
          simp only [TF.line, hnew, hh]
          simp
        refine ⟨by rw [hline]; exact h.order, by rw [hline]; exact h.perm, fun _ => hv, ?_⟩
        intro t' logs' last' h1 h2
        cases last with
        | true => simp at h1
        | false =>
          simp only [Bool.false_eq_true, if_false, Option.some.injEq] at h1
          subst h1
          cases h2
      · exact h
    · exact h
  | die =>
    refine ⟨?_, ?_, fun _ => rfl, (fun _ _ _ x => nomatch x)⟩
    · refine List.Sublist.trans ?_ h.order
      show (s.uploads.flatMap (fun x : List Entry × UpResult => x.1) ++ ([] ++ (s.file ++ []))).Sublist _
      simp only [List.nil_append, List.append_nil, TF.line]
      refine List.Sublist.append_left ?_ _
      exact (List.sublist_append_left _ _).trans (List.sublist_append_right _ _)
    · refine h.perm.trans ?_
      show List.Perm _ ((s.lost ++ (s.holds ++ s.vol).map fun x => (TReason.died, x)).map (·.2) ++ s.old ++
        (s.uploads.flatMap (fun x : List Entry × UpResult => x.1) ++ ([] ++ (s.file ++ []))))
      simp only [List.map_append, map_pair, TF.line]
      rw [List.perm_iff_count]
      intro a
      simp only [List.count_append, List.count_nil]
      omega

theorem TF.run_inv (es : List TEv) : ∀ {s : TF}, s.Inv → (s.run es).Inv := by
  induction es with
  | nil => intro s h; exact h
  | cons e es ih => intro s h; exact ih (h.step e)

/-- C84: whatever happens, all triggered uploads of a buffer together carry logs written to it in the order of writing and none twice,
and no upload is empty; also after deaths of the process. -/
theorem C84_once (es : List TEv) :
    let s := TF.init.run es
    (s.uploads.flatMap (·.1) ++ s.holds ++ s.file ++ s.vol).Sublist s.accepted ∧
    s.accepted.Perm (s.lost.map (·.2) ++ s.old ++ (s.uploads.flatMap (·.1) ++ s.holds ++ s.file ++ s.vol)) := by
  intro s
  have h : s.Inv := TF.run_inv es TF.inv_init
  have e : s.uploads.flatMap (·.1) ++ s.holds ++ s.file ++ s.vol = s.line := by simp [TF.line]
  rw [e]
  exact ⟨h.order, h.perm⟩

/-! ### A whole upload -/

open Verif.Upload (trigLoop trigUpload)

/-- Events of an upload that is not disturbed: other tasks may write meanwhile. -/
def Undisturbed : TEv → Prop
  | .read => True
  | .result _ => True
  | .write _ => True
  | .move _ => True
  | _ => False

/-- What the batches given to the service will be, from the state of the upload; `base` are the uploads before it. -/
def Heading (w : Option Int) (base : List (List Entry × UpResult)) (final : List (List Entry)) (s : TF) : Prop :=
  ∃ new : List (List Entry × UpResult), s.uploads = base ++ new ∧
  match s.task with
  | none => new.map (·.1) = final
  | some t => t.lookback = w ∧ s.vol = [] ∧ match t.phase with
    | .reading => ∃ d, (trigLoop w .unavailable s.file t.builder (new.map (·.1)) d).1 = final
    | .uploading logs last => t.builder = .empty ∧
      if last then new.map (·.1) ++ [logs] = final
      else ∃ d, (trigLoop w .unavailable s.file .empty (new.map (·.1) ++ [logs]) d).1 = final

theorem heading_step {w : Option Int} {base : List (List Entry × UpResult)} {final : List (List Entry)} {s : TF}
    (h : Heading w base final s) (e : TEv) (he : Undisturbed e) : Heading w base final (s.step e) := by
  obtain ⟨new, hu, hm⟩ := h
  cases ht : s.task with
  | none =>
    rw [ht] at hm
    have key : (s.step e).task = none ∧ (s.step e).uploads = s.uploads := by
      cases e with
      | write x => simp [TF.step, ht]
      | move k => simp only [TF.step]; split <;> exact ⟨ht, rfl⟩
      | read => simp [TF.step, ht]
      | result r => simp [TF.step, ht]
      | _ => exact absurd he (by simp [Undisturbed])
    exact ⟨new, by rw [key.2]; exact hu, by rw [key.1]; exact hm⟩
  | some t =>
    rw [ht] at hm
    obtain ⟨hw, hv, hph⟩ := hm
    have same : s.step e = s → Heading w base final (s.step e) := by
      intro hs; rw [hs]; exact ⟨new, hu, by rw [ht]; exact ⟨hw, hv, hph⟩⟩
    cases e with
    | write x => exact same (by simp [TF.step, ht])
    | move k => exact same (by simp [TF.step, hv])
    | read =>
      cases hp : t.phase with
      | uploading logs last => exact same (by simp [TF.step, ht, hp])
      | reading =>
        rw [hp] at hph
        obtain ⟨d, hd⟩ := hph
        have hst : s.step .read = s.read t := by simp [TF.step, ht, hp]
        rw [hst]
        unfold TF.read
        cases hf : s.file with
        | nil =>
          simp only [hf, trigLoop] at hd
          by_cases hb : t.builder.logs.isEmpty = true
          · rw [if_pos hb] at hd
            simp only [hb, if_true]
            exact ⟨new, hu, hd⟩
          · rw [if_neg hb] at hd
            simp only [hb, Bool.false_eq_true, if_false]
            exact ⟨new, hu, hw, hv, rfl, by simpa using hd⟩
        | cons x xs =>
          rw [hf] at hd
          simp only [trigLoop] at hd
          rw [← hw] at hd
          by_cases ho : x.old t.lookback = true
          · simp only [ho, if_true] at hd ⊢
            refine ⟨new, hu, ?_⟩
            simp only [ht]
            refine ⟨hw, hv, ?_⟩
            rw [hp]
            exact ⟨d + 1, by rw [← hw]; exact hd⟩
          · simp only [ho, Bool.false_eq_true, if_false] at hd ⊢
            by_cases hlim : (t.builder.add x).limitReached x.lim = true
            · simp only [hlim, if_true] at hd ⊢
              exact ⟨new, hu, hw, hv, rfl, by simp only [Bool.false_eq_true, if_false]; exact ⟨d, by rw [← hw]; exact hd⟩⟩
            · simp only [hlim, Bool.false_eq_true, if_false] at hd ⊢
              refine ⟨new, hu, hw, hv, ?_⟩
              simp only [hp]
              exact ⟨d, by rw [← hw]; exact hd⟩
    | result r =>
      cases hp : t.phase with
      | reading => exact same (by simp [TF.step, ht, hp])
      | uploading logs last =>
        rw [hp] at hph
        obtain ⟨hb, hph⟩ := hph
        have hst : s.step (.result r) = { s with
            uploads := s.uploads ++ [(logs, r)], task := if last then none else some { t with phase := .reading } } := by
          simp [TF.step, ht, hp]
        rw [hst]
        refine ⟨new ++ [(logs, r)], by simp [hu], ?_⟩
        cases last with
        | true => simpa using hph
        | false =>
          simp only [Bool.false_eq_true, if_false] at hph ⊢
          obtain ⟨d, hd⟩ := hph
          exact ⟨hw, hv, d, by rw [hb]; simpa using hd⟩
    | _ => exact absurd he (by simp [Undisturbed])

theorem heading_run {w : Option Int} {base : List (List Entry × UpResult)} {final : List (List Entry)} (es : List TEv) :
    ∀ {s : TF}, Heading w base final s → (∀ e ∈ es, Undisturbed e) → Heading w base final (s.run es) := by
  induction es with
  | nil => intro s h _; exact h
  | cons e es ih =>
    intro s h he
    exact ih (heading_step h e (he e List.mem_cons_self)) fun x hx => he x (List.mem_cons_of_mem _ hx)

/-- C84: an upload that runs to its end gives to the service exactly what the buffer held when it was requested (in the file and in memory,
apart from what was overwritten), without the logs that are too old, in order, in the batches of C12; whatever is written meanwhile. -/
theorem C84_complete (es0 : List TEv) (w : Option Int) (k : Nat) (es : List TEv) (he : ∀ e ∈ es, Undisturbed e) :
    let s := TF.init.run es0
    let t := (s.step (.request w k)).run es
    s.task = none → t.task = none →
    ∃ new : List (List Entry × UpResult), t.uploads = s.uploads ++ new ∧
      (new.map (·.1)).flatten = ((s.file ++ s.vol).drop k).filter (fun e => !e.old w) ∧
      new.map (·.1) = (trigUpload w .unavailable ((s.file ++ s.vol).drop k)).1 := by
  intro s t hs ht
  have h0 : Heading w s.uploads (trigUpload w .unavailable ((s.file ++ s.vol).drop k)).1 (s.step (.request w k)) := by
    have hst : s.step (.request w k) = { s with
        vol := []
        file := (s.file ++ s.vol).drop k
        lost := s.lost ++ ((s.file ++ s.vol).take k).map fun x => (.overwritten, x)
        task := some ⟨w, .empty, .reading⟩ } := by simp [TF.step, hs]
    rw [hst]
    exact ⟨[], by simp, rfl, rfl, 0, rfl⟩
  obtain ⟨new, h1, h2⟩ := heading_run es h0 he
  have ht' : ((s.step (.request w k)).run es).task = none := ht
  rw [ht'] at h2
  refine ⟨new, h1, ?_, h2⟩
  rw [h2]
  exact (Verif.Upload.C12_partition w _).1

theorem TF.run_append (a b : List TEv) : ∀ s : TF, s.run (a ++ b) = (s.run a).run b := by
  induction a with
  | nil => intro s; rfl
  | cons e a ih => intro s; exact ih _

/-- C84: an upload comes to its end when the service answers every request. -/
theorem C84_ends (s : TF) : ∃ es, (∀ e ∈ es, e = .read ∨ e = .result .success) ∧ (s.run es).task = none := by
  have hlast : ∀ (t : Task) (s : TF), s.task = some t → t.phase = .reading → s.file = [] →
      ∃ es, (∀ e ∈ es, e = .read ∨ e = .result .success) ∧ (s.run es).task = none := by
    intro t s ht hp hf
    by_cases hb : t.builder.logs.isEmpty = true
    · exact ⟨[.read], by simp, by simp [TF.run, TF.step, ht, hp, TF.read, hf, hb]⟩
    · refine ⟨[.read, .result .success], by simp, ?_⟩
      have hb' : t.builder.logs.isEmpty = false := by simpa using hb
      simp [TF.run, TF.step, ht, hp, TF.read, hf, hb']
  have main : ∀ (n : Nat) (t : Task) (s : TF), s.file.length = n → s.task = some t → t.phase = .reading →
      ∃ es, (∀ e ∈ es, e = .read ∨ e = .result .success) ∧ (s.run es).task = none := by
    intro n
    induction n with
    | zero => intro t s hn ht hp; exact hlast t s ht hp (List.length_eq_zero_iff.mp hn)
    | succ n ih =>
      intro t s hn ht hp
      cases hf : s.file with
      | nil => simp [hf] at hn
      | cons x xs =>
        have hxs : xs.length = n := by rw [hf] at hn; simpa using hn
        have hst : s.step .read = s.read t := by simp [TF.step, ht, hp]
        by_cases ho : x.old t.lookback = true
        · have hr : s.read t = { s with file := xs, old := s.old ++ [x] } := by simp [TF.read, hf, ho]
          obtain ⟨es, a, b⟩ := ih t (s.step .read) (by rw [hst, hr]; exact hxs) (by rw [hst, hr]; exact ht) hp
          exact ⟨.read :: es, by simpa using a, b⟩
        · have ho' : x.old t.lookback = false := by simpa using ho
          by_cases hl : (t.builder.add x).limitReached x.lim = true
          · have hr : s.read t = { s with file := xs, task := some { t with builder := .empty, phase := .uploading (t.builder.add x).logs false } } := by
              simp [TF.read, hf, ho', hl]
            have h2 : (s.step .read).step (.result .success) = { s with
                file := xs
                uploads := s.uploads ++ [((t.builder.add x).logs, .success)]
                task := some { t with builder := .empty, phase := .reading } } := by
              rw [hst, hr]; rfl
            obtain ⟨es, a, b⟩ := ih { t with builder := .empty, phase := .reading } ((s.step .read).step (.result .success)) (by rw [h2]; exact hxs) (by rw [h2]) rfl
            exact ⟨.read :: .result .success :: es, by simpa using a, b⟩
          · have hl' : (t.builder.add x).limitReached x.lim = false := by simpa using hl
            have hr : s.read t = { s with file := xs, task := some { t with builder := t.builder.add x } } := by
              simp [TF.read, hf, ho', hl']
            obtain ⟨es, a, b⟩ := ih { t with builder := t.builder.add x } (s.step .read) (by rw [hst, hr]; exact hxs) (by rw [hst, hr]) hp
            exact ⟨.read :: es, by simpa using a, b⟩
  cases ht : s.task with
  | none => exact ⟨[], by simp, ht⟩
  | some t =>
    cases hp : t.phase with
    | reading => exact main _ t s rfl ht hp
    | uploading logs last =>
      cases last with
      | true => exact ⟨[.result .success], by simp, by simp [TF.run, TF.step, ht, hp]⟩
      | false =>
        have h2 : s.step (.result .success) = { s with
            uploads := s.uploads ++ [(logs, .success)], task := some { t with phase := .reading } } := by
          simp [TF.step, ht, hp]
        obtain ⟨es, a, b⟩ := main _ { t with phase := .reading } (s.step (.result .success)) rfl (by rw [h2]) rfl
        exact ⟨.result .success :: es, by simpa using a, b⟩

/-- A log leaves the file only by being overwritten, too old, or uploaded with success. -/
def C84_kept_statement : Prop := ∀ es : List TEv,
  let s := TF.init.run es
  ∀ x ∈ s.accepted, x ∈ s.file ∨ x ∈ s.vol ∨ x ∈ s.old ∨ (TReason.overwritten, x) ∈ s.lost ∨ ∃ u ∈ s.uploads, u.2 = .success ∧ x ∈ u.1

/-- A log is removed from the file when it is read, not when it was uploaded (ring_buffer.rs:527-532): a process that dies during the upload
loses it. -/
theorem C84_died_violated : ¬ C84_kept_statement := by
  intro h
  have := h [.write ⟨[7], none, ⟨1, 100⟩⟩, .move 0, .request none 0, .read, .die] ⟨[7], none, ⟨1, 100⟩⟩ (by decide)
  revert this
  decide

/-- The result of an upload is ignored (consumer.rs:706-724): when a shutdown cancels the uploads, the rest of the buffer is read,
removed and given to an upload service that cancels everything. -/
theorem C84_canceled_violated :
    let e (n : Nat) : Entry := ⟨[n], none, ⟨1, 100⟩⟩
    let s := TF.init.run [.write (e 1), .write (e 2), .write (e 3), .request none 0, .read, .result .canceled, .read, .result .canceled,
      .read, .result .canceled, .read]
    s.task = none ∧ s.file = [] ∧ s.lost = [] ∧ s.uploads = [([e 1], .canceled), ([e 2], .canceled), ([e 3], .canceled)] := by decide

/-- C84, for uploads that succeed: a log that is not in the buffer any more and is not held by an upload is old, overwritten or uploaded.
Missing: deaths and errors during an upload, results other than success. -/
theorem C84_kept_partial (es : List TEv) (h1 : TEv.die ∉ es) (h2 : TEv.readError ∉ es) (h3 : ∀ r, TEv.result r ∈ es → r = .success) :
    let s := TF.init.run es
    ∀ x ∈ s.accepted, x ∈ s.file ∨ x ∈ s.vol ∨ x ∈ s.holds ∨ x ∈ s.old ∨ (TReason.overwritten, x) ∈ s.lost ∨
      ∃ u ∈ s.uploads, u.2 = .success ∧ x ∈ u.1 := by
  intro s x hx
  have hall : ∀ (es : List TEv) (s : TF), TEv.die ∉ es → TEv.readError ∉ es → (∀ r, TEv.result r ∈ es → r = .success) →
      (∀ l ∈ s.lost, l.1 = .overwritten) → (∀ u ∈ s.uploads, u.2 = .success) →
      (∀ l ∈ (s.run es).lost, l.1 = .overwritten) ∧ ∀ u ∈ (s.run es).uploads, u.2 = .success := by
    intro es
    induction es with
    | nil => intro s _ _ _ a b; exact ⟨a, b⟩
    | cons e es ih =>
      intro s h1 h2 h3 a b
      apply ih (s.step e) (fun h => h1 (List.mem_cons_of_mem _ h)) (fun h => h2 (List.mem_cons_of_mem _ h))
        (fun r h => h3 r (List.mem_cons_of_mem _ h))
      · cases e with
        | die => exact absurd List.mem_cons_self h1
        | readError => exact absurd List.mem_cons_self h2
        | write e => simp only [TF.step]; split <;> exact a
        | move k =>
          simp only [TF.step]
          split
          · exact a
          · intro l hl
            rcases List.mem_append.mp hl with h | h
            · exact a l h
            · obtain ⟨y, _, rfl⟩ := List.mem_map.mp h; rfl
        | request w k =>
          simp only [TF.step]
          split
          · exact a
          · intro l hl
            rcases List.mem_append.mp hl with h | h
            · exact a l h
            · obtain ⟨y, _, rfl⟩ := List.mem_map.mp h; rfl
        | read =>
          simp only [TF.step, TF.read]
          repeat' split
          all_goals exact a
        | result r =>
          simp only [TF.step]
          repeat' split
          all_goals exact a
      · cases e with
        | die => exact absurd List.mem_cons_self h1
        | readError => exact absurd List.mem_cons_self h2
        | write e => simp only [TF.step]; split <;> exact b
        | move k => simp only [TF.step]; split <;> exact b
        | request w k => simp only [TF.step]; split <;> exact b
        | read =>
          simp only [TF.step, TF.read]
          repeat' split
          all_goals exact b
        | result r =>
          simp only [TF.step]
          split
          · split
            · intro u hu
              rcases List.mem_append.mp hu with h | h
              · exact b u h
              · simp only [List.mem_singleton] at h
                rw [h]; exact h3 r List.mem_cons_self
            · exact b
          · exact b
  obtain ⟨a, b⟩ := hall es TF.init h1 h2 h3 (by simp [TF.init]) (by simp [TF.init])
  have hp := (C84_once es).2.mem_iff.mp hx
  simp only [List.mem_append, List.mem_map, List.mem_flatMap] at hp
  rcases hp with (⟨l, hl, rfl⟩ | hp) | ((⟨u, hu, hxu⟩ | hp) | hp) | hp
  · have := a l hl
    right; right; right; right; left
    rw [← this]; exact hl
  · exact Or.inr (Or.inr (Or.inr (Or.inl hp)))
  · exact Or.inr (Or.inr (Or.inr (Or.inr (Or.inr ⟨u, hu, b u hu, hxu⟩))))
  · exact Or.inr (Or.inr (Or.inl hp))
  · exact Or.inl hp
  · exact Or.inr (Or.inl hp)

example :
    let l : Limits := ⟨2, 100⟩
    let e (n : Nat) (ts : Int) : Entry := ⟨[n], some ts, l⟩
    let s := TF.init.run [.write (e 1 50), .write (e 2 5), .move 0, .move 1, .write (e 3 50), .request (some 10) 0, .write (e 9 50), .read, .read,
      .read, .result .success]
    s.accepted = [e 1 50, e 2 5, e 3 50] ∧ s.lost = [(.overwritten, e 1 50)] ∧ s.old = [e 2 5] ∧ s.uploads = [([e 3 50], .success)] ∧
    s.task = none := by decide

/-! ### Streams -/

/-- C84: streamed logs are uploaded one by one in the order of writing, and removed from the buffer when the upload has returned: what was
uploaded and what is in the buffer is always exactly what was written. -/
theorem C84_stream (es : List SEv) :
    let s := SF.init.run es
    s.uploads.map (·.1) ++ s.buf = s.accepted := by
  suffices H : ∀ (es : List SEv) (s : SF), s.uploads.map (·.1) ++ s.buf = s.accepted → (s.run es).uploads.map (·.1) ++ (s.run es).buf = (s.run es).accepted from
    H es SF.init rfl
  intro es
  induction es with
  | nil => intro s h; exact h
  | cons e es ih =>
    intro s h
    apply ih
    cases e with
    | write e => simp [SF.step, ← h]
    | read => simp only [SF.step]; split <;> exact h
    | result r =>
      simp only [SF.step]
      split
      · exact h
      · rename_i x xs hb
        split
        · simp only [List.map_append, List.map_cons, List.map_nil]
          rw [hb] at h
          simpa using h
        · rw [hb] at h; simpa [hb] using h
    | shutdown => exact h

example :
    let e (n : Nat) : Entry := ⟨[n], none, ⟨1, 1⟩⟩
    let s := SF.init.run [.write (e 1), .write (e 2), .read, .result .failure, .read, .write (e 3), .shutdown]
    s.uploads = [(e 1, .failure)] ∧ s.buf = [e 2, e 3] := by decide

end Verif.Flow
