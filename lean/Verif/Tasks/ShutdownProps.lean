import Verif.Tasks.ShutdownInv

/-!
# C77: shutting down the logger completes, and afterwards nothing happens any more
-/

namespace Verif.Tasks

/-- The steps which touch the uploads under way. -/
def Label.data : Label → Bool
  | .down | .drain | .answer _ _ | .fPut | .tPut _ => true
  | _ => false

theorem step_data (R : Nat) (s s' : St) (l : Label) (hd : l.data = false) (hl : step R s l = some s') :
    s'.sent = s.sent ∧ s'.dataQ = s.dataQ := by
  cases l with
  | down => simp [Label.data] at hd
  | drain => simp [Label.data] at hd
  | answer m ok => simp [Label.data] at hd
  | fPut => simp [Label.data] at hd
  | tPut t => simp [Label.data] at hd
  | uEvent =>
    simp only [step] at hl
    split at hl
    · rename_i e he
      split at hl
      · rename_i hu
        obtain ⟨ts, shs, tb, st, u, eq, _⟩ := handleEvent_W R { s with evQ := none } e hu
        obtain rfl := Option.some.inj hl
        rw [eq]; exact ⟨rfl, rfl⟩
      · simp at hl
    · simp at hl
  | uTrigger =>
    simp only [step] at hl
    split at hl
    · rename_i req he
      split at hl
      · obtain ⟨ts, shs, act, eq, _⟩ := trigAll_W R req { s with trigQ := none }
        obtain rfl := Option.some.inj hl
        rw [eq]; exact ⟨rfl, rfl⟩
      · simp at hl
    · simp at hl
  | matched r =>
    simp only [step] at hl
    split at hl
    · obtain rfl := Option.some.inj hl
      constructor <;> split <;> rfl
    · simp at hl
  | fResponse =>
    simp only [step] at hl
    split at hl
    · split at hl
      · obtain rfl := Option.some.inj hl
        constructor <;> split <;> rfl
      · simp at hl
    · simp at hl
  | _ =>
    simp only [step] at hl
    repeat' split at hl
    all_goals first
      | (obtain rfl := Option.some.inj hl; exact ⟨rfl, rfl⟩)
      | simp at hl

structure SInv (d : Sd) : Prop where
  inv : Inv d.s
  own : Own d.s d.uEnd
  keys : Keys d.s
  uend : d.uEnd = true → d.s.evQ = none ∧ d.s.trigQ = none ∧ d.uShut = some []
  ush : d.uShut ≠ none → d.s.u = .idle
  ushl : ∀ l, d.uShut = some l → ∀ t ∈ l, t < d.s.tasks.length
  ushh : ∀ t ts, d.uShut = some (t :: ts) → ∃ x : Task, d.s.tasks[t]? = some x ∧ x.shut = true
  aend : d.aEnd = true → d.s.sent = [] ∧ d.s.dataQ = none
  told : d.aEnd = true ∨ d.uEnd = true ∨ d.lEnd = true ∨ d.fEnd = true ∨ d.uShut ≠ none → d.pending = true
  trig : d.pending = true → d.trigger = false

theorem sinv_init : SInv {} := by
  constructor <;> first | exact inv_init | simp [Own, Keys]

theorem SInv.cancelled_iff {d : Sd} (h : SInv d) : d.cancelled = true ↔ d.pending = true := by
  unfold Sd.cancelled
  cases hp : d.pending with
  | true => simp
  | false =>
    simp only [Bool.false_or, Bool.and_eq_true, Bool.false_eq_true, iff_false, not_and]
    intro _ hl
    have := h.told (.inr (.inr (.inl hl)))
    rw [hp] at this; simp at this

theorem sinv_base (R : Nat) (d : Sd) (s' : St) (l : Label) (h : SInv d) (hm : d.may l = true)
    (hl : step R d.s l = some s') : SInv { d with s := s' } := by
  have hi := inv_step R d.s s' l h.inv hl
  have ha : d.aEnd = true → s'.sent = [] ∧ s'.dataQ = none := by
    intro hae
    have hd : l.data = false := by
      cases l <;> first | rfl | (simp [Sd.may, hae] at hm)
    obtain ⟨h1, h2⟩ := step_data R d.s s' l hd hl
    rw [h1, h2]; exact h.aend hae
  cases hU : l.ofU with
  | true =>
    have hg : d.uEnd = false ∧ d.uShut = none := by
      cases l <;> first | (simp [Label.ofU] at hU; done) | (simpa [Sd.may] using hm)
    have ho := h.own
    rw [hg.1] at ho
    obtain ⟨h1, h2⟩ := own_uStep R d.s s' l hU hl ho h.keys
    refine ⟨hi, by rw [hg.1]; exact h1, h2, ?_, ?_, ?_, ?_, ha, h.told, h.trig⟩
    · intro hu; simp [hg.1] at hu
    · intro hu; simp [hg.2] at hu
    · intro l hu; simp [hg.2] at hu
    · intro t ts hu; simp [hg.2] at hu
  | false =>
    have fr := step_frame R d.s s' l hU hl
    refine ⟨hi, h.own.tr fr.tr fr.shutdowns fr.stream, ?_, ?_, ?_, ?_, ?_, ha, h.told, h.trig⟩
    · unfold Keys; rw [fr.shutdowns]; exact h.keys
    · intro hu
      obtain ⟨h1, h2, h3⟩ := h.uend hu
      refine ⟨?_, ?_, h3⟩
      · rw [← h1]; apply fr.ev
        rintro rfl; simp [Sd.may, show d.uEnd = true from hu] at hm
      · rw [← h2]; apply fr.trig
        · rintro rfl; simp [Sd.may, show d.uEnd = true from hu] at hm
        · rintro r rfl; simp [Sd.may, show d.uEnd = true from hu] at hm
    · intro hu; exact fr.u.trans (h.ush hu)
    · intro l hu t ht; exact Nat.lt_of_lt_of_le (h.ushl l hu t ht) fr.tr.len
    · intro t ts hu
      obtain ⟨x, hx, hs⟩ := h.ushh t ts hu
      obtain ⟨x', hx', _, hs', _⟩ := fr.tr.fwd t x hx
      exact ⟨x', hx', hs'.trans hs⟩

/-- The API task ends: all its uploads fail. -/
theorem aGone_spec (R : Nat) (s : St) : ∃ ts rx, aGone R s = { s with tasks := ts, rx := rx, sent := [], dataQ := none } ∧
    Tr s (aGone R s) ∧ (Inv s → Inv (aGone R s)) := by
  obtain ⟨⟨ts, rx, e⟩, k, w, r⟩ := fails_spec R (s.sent ++ s.dataQ.toList) s
  have tr := tr_fails R (s.sent ++ s.dataQ.toList) s
  refine ⟨ts, rx, by unfold aGone; rw [e], tr.congr rfl rfl, ?_⟩
  intro h
  have hk : Keeps s (aGone R s) := ⟨k.len, k.wait, k.shut, k.trig⟩
  have eq : aGone R s = { s with tasks := ts, rx := rx, sent := [], dataQ := none } := by unfold aGone; rw [e]
  have hlen := hk.len
  refine h.keep hk ?_ ?_ ?_ ?_ ?_ ?_
  · rintro t ⟨x, m, n, hx, hp⟩ hm
    exfalso
    refine w t x m n hx hp ?_
    rcases hm with hm | hm <;> simp [hm]
  · intro hr
    exfalso
    obtain ⟨h1, h2⟩ := r hr
    rcases h.rx h1 with h3 | h3 <;> simp [h3] at h2
  · intro t ht
    rw [eq] at ht ⊢
    exact ⟨(h.cls t ht).1, .inl ht⟩
  · rw [eq] at hlen ⊢
    intro p hp
    exact Nat.lt_of_lt_of_le (h.sh p hp) hlen
  · rw [eq] at hlen ⊢
    intro t ht
    exact Nat.lt_of_lt_of_le (h.str t ht) hlen
  · rw [eq]; exact h.ev

/-- The invariant of the tasks depends only on some of the state. -/
theorem Inv.other {s s' : St} (h : Inv s) (h1 : s'.tasks = s.tasks) (h2 : s'.sent = s.sent)
    (h3 : s'.dataQ = s.dataQ) (h4 : s'.rx = .waiting → s.rx = .waiting) (h5 : s'.u = s.u)
    (h6 : s'.shutdowns = s.shutdowns) (h7 : s'.streamTask = s.streamTask)
    (h8 : (∃ evs ok, s.a = .sendEvents evs ok) → (∃ evs ok, s'.a = .sendEvents evs ok))
    (h9 : s'.evQ ≠ none → s.evQ ≠ none) : Inv s' := by
  constructor
  · rw [h1, h2, h3]; exact h.wait
  · rw [h2, h3]; intro hr; exact h.rx (h4 hr)
  · rw [h1, h5]; intro t ht; exact ⟨h8 (h.cls t ht).1, (h.cls t ht).2⟩
  · rw [h1]; exact h.trig
  · rw [h1, h6]; exact h.sh
  · rw [h1, h7]; exact h.str
  · intro he; exact h8 (h.ev (h9 he))

/-- Signalling uploads. -/
theorem Inv.shutAll {s : St} (h : Inv s) (ts : List Nat) : Inv (ts.foldl Tasks.shutTask s) := by
  obtain ⟨tasks, e⟩ := shutAll_eq ts s
  have k := keeps_shutAll ts s
  have hlen := k.len
  refine h.keep k ?_ ?_ ?_ ?_ ?_ ?_
  · intro t _ ht; rw [e]; exact ht
  · rw [e]; exact h.rx
  · intro t ht; rw [e] at ht ⊢; exact ⟨(h.cls t ht).1, .inl ht⟩
  · rw [e] at hlen ⊢; intro p hp; exact Nat.lt_of_lt_of_le (h.sh p hp) hlen
  · rw [e] at hlen ⊢; intro t ht; exact Nat.lt_of_lt_of_le (h.str t ht) hlen
  · rw [e]; exact h.ev

theorem signalHead_eq (s : St) (ts : List Nat) : signalHead s ts = (ts.take 1).foldl shutTask s := by
  cases ts <;> rfl

theorem Own.shutAll {g : Bool} : ∀ (ts : List Nat) {s : St}, Own s g → Own (ts.foldl Tasks.shutTask s) g := by
  intro ts
  induction ts with
  | nil => intro s h; exact h
  | cons t ts ih => intro s h; exact ih (h.shutTask t)

theorem shutAll_len (ts : List Nat) (s : St) : (ts.foldl shutTask s).tasks.length = s.tasks.length := by
  induction ts generalizing s with
  | nil => rfl
  | cons t ts ih => rw [List.foldl_cons, ih, shutTask_len]

theorem cancelPhase_trigger (R : Nat) (x : Task) (hk : x.kind = .trigger) (h : x.phase ≠ .reading) :
    cancelPhase R x ≠ .reading := by
  unfold cancelPhase nextPhase
  cases hp : x.phase <;> simp_all <;> split <;> simp

theorem cancelPhase_waiting (R : Nat) (d : Sd) (x : Task) (hm : mayCancel d x = true) (m n : Nat) :
    cancelPhase R x ≠ .waiting m n := by
  unfold cancelPhase nextPhase
  unfold mayCancel at hm
  cases hp : x.phase <;> simp_all <;> (repeat' split) <;> simp

theorem sinv_step (R : Nat) (d d' : Sd) (l : SLabel) (h : SInv d) (hl : d.step R l = some d') : SInv d' := by
  cases l with
  | base l =>
    simp only [Sd.step] at hl
    split at hl
    · rename_i hm
      cases hs : step R d.s l with
      | none => simp [hs] at hl
      | some s' =>
        simp only [hs, Option.map_some, Option.some.injEq] at hl
        subst hl
        exact sinv_base R d s' l h hm hs
    · simp at hl
  | call b =>
    simp only [Sd.step] at hl
    split at hl
    · obtain rfl := Option.some.inj hl
      exact ⟨h.inv, h.own, h.keys, h.uend, h.ush, h.ushl, h.ushh, h.aend,
        fun ht => by simp [h.told ht], fun _ => rfl⟩
    · obtain rfl := Option.some.inj hl
      exact ⟨h.inv, h.own, h.keys, h.uend, h.ush, h.ushl, h.ushh, h.aend, h.told, h.trig⟩
  | ret i =>
    simp only [Sd.step] at hl
    split at hl
    · split at hl
      · obtain rfl := Option.some.inj hl
        exact ⟨h.inv, h.own, h.keys, h.uend, h.ush, h.ushl, h.ushh, h.aend, h.told, h.trig⟩
      · simp at hl
    · simp at hl
  | aStop =>
    simp only [Sd.step] at hl
    split at hl
    · rename_i hc
      obtain rfl := Option.some.inj hl
      obtain ⟨ts, rx, e, tr, hi⟩ := aGone_spec R d.s
      refine ⟨hi h.inv, h.own.tr tr (by rw [e]) (by rw [e]), ?_, ?_, ?_, ?_, ?_, ?_, ?_, h.trig⟩
      · unfold Keys; rw [e]; exact h.keys
      · intro hu; rw [e]; exact h.uend hu
      · intro hu; rw [e]; exact h.ush hu
      · intro l hu t ht; exact Nat.lt_of_lt_of_le (h.ushl l hu t ht) tr.len
      · intro t tl hu
        obtain ⟨x, hx, hs⟩ := h.ushh t tl hu
        obtain ⟨x', hx', _, hs', _⟩ := tr.fwd t x hx
        exact ⟨x', hx', hs'.trans hs⟩
      · intro _; rw [e]; exact ⟨rfl, rfl⟩
      · intro _; exact h.cancelled_iff.mp hc.1
    · simp at hl
  | aRefused =>
    simp only [Sd.step] at hl
    split at hl
    · rename_i e es ok ha
      split at hl
      · obtain rfl := Option.some.inj hl
        refine ⟨h.inv.other rfl rfl rfl (fun h => h) rfl rfl rfl (fun _ => ⟨_, _, rfl⟩) (fun h => h),
          h.own, h.keys, h.uend, h.ush, h.ushl, h.ushh, h.aend, h.told, h.trig⟩
      · simp at hl
    · simp at hl
  | aConfigRefused =>
    simp only [Sd.step] at hl
    split at hl
    · rename_i hc
      obtain rfl := Option.some.inj hl
      refine ⟨h.inv.other rfl rfl rfl (fun h => h) rfl rfl rfl ?_ (fun h => h),
        h.own, h.keys, h.uend, h.ush, h.ushl, h.ushh, h.aend, h.told, h.trig⟩
      rintro ⟨evs, ok, he⟩
      rw [hc.2.2] at he; simp at he
    · simp at hl
  | aFail =>
    simp only [Sd.step] at hl
    split at hl
    · rename_i req ha
      split at hl
      · rename_i hc
        obtain rfl := Option.some.inj hl
        obtain ⟨ts, rx, e, tr, hi⟩ := aGone_spec R d.s
        refine ⟨(hi h.inv).other rfl rfl rfl (by simp) rfl rfl rfl (fun h => h) (fun h => h),
          h.own.tr (tr.congr rfl rfl) (by simp only; rw [e]) (by simp only; rw [e]),
          ?_, ?_, ?_, ?_, ?_, ?_, ?_, h.trig⟩
        · unfold Keys; simp only; rw [e]; exact h.keys
        · intro hu; simp only; rw [e]; exact h.uend hu
        · intro hu; simp only; rw [e]; exact h.ush hu
        · intro l hu t ht; exact Nat.lt_of_lt_of_le (h.ushl l hu t ht) tr.len
        · intro t tl hu
          obtain ⟨x, hx, hs⟩ := h.ushh t tl hu
          obtain ⟨x', hx', _, hs', _⟩ := tr.fwd t x hx
          exact ⟨x', hx', hs'.trans hs⟩
        · intro _; simp only; rw [e]; exact ⟨rfl, rfl⟩
        · intro _; exact h.told (.inr (.inl hc.2))
      · simp at hl
    · simp at hl
  | uStop order =>
    simp only [Sd.step] at hl
    split at hl
    · rename_i hc
      obtain ⟨hca, hue, hus, hu, hp⟩ := hc
      obtain rfl := Option.some.inj hl
      have hp := List.isPerm_iff.mp hp
      have hin : ∀ t ∈ order, t < d.s.tasks.length := by
        intro t ht
        obtain ⟨p, hp, rfl⟩ := List.mem_map.mp (hp.mem_iff.mp ht)
        exact h.inv.sh p hp
      obtain ⟨tasks, e⟩ := shutAll_eq (order.take 1) d.s
      have hlen := shutAll_len (order.take 1) d.s
      refine ⟨?_, ?_, ?_, ?_, ?_, ?_, ?_, ?_, ?_, h.trig⟩
      · simp only [signalHead_eq]; exact h.inv.shutAll _
      · simp only [signalHead_eq]; exact h.own.shutAll _
      · simp only [signalHead_eq, Keys, e]; exact h.keys
      · intro hu'; simp [hue] at hu'
      · intro _; simp only [signalHead_eq, e]; exact hu
      · intro l hl t ht
        simp only [Option.some.injEq] at hl
        subst hl
        simp only [signalHead_eq, hlen]
        exact hin t ht
      · intro t ts hl
        simp only [Option.some.injEq] at hl
        subst hl
        exact shutTask_shut d.s t (hin t (by simp))
      · intro ha; simp only [signalHead_eq, e]; exact h.aend ha
      · intro _; exact h.cancelled_iff.mp hca
    · simp at hl
  | uNext =>
    simp only [Sd.step] at hl
    split at hl
    · rename_i t ts hus
      split at hl
      · split at hl
        · obtain rfl := Option.some.inj hl
          rename_i hc
          have hin : ∀ t ∈ ts, t < d.s.tasks.length := fun t' ht' => h.ushl _ hus t' (by simp [ht'])
          obtain ⟨tasks, e⟩ := shutAll_eq (ts.take 1) d.s
          have hlen := shutAll_len (ts.take 1) d.s
          refine ⟨?_, ?_, ?_, ?_, ?_, ?_, ?_, ?_, ?_, h.trig⟩
          · simp only [signalHead_eq]; exact h.inv.shutAll _
          · simp only [signalHead_eq]; exact h.own.shutAll _
          · simp only [signalHead_eq, Keys, e]; exact h.keys
          · intro hu'; simp [hc.1] at hu'
          · intro _; simp only [signalHead_eq, e]; exact h.ush (by simp [hus])
          · intro l hl t ht
            simp only [Option.some.injEq] at hl
            subst hl
            simp only [signalHead_eq, hlen]
            exact hin t ht
          · intro t ts' hl
            simp only [Option.some.injEq] at hl
            subst hl
            exact shutTask_shut d.s t (hin t (by simp))
          · intro ha; simp only [signalHead_eq, e]; exact h.aend ha
          · intro _; exact h.told (.inr (.inr (.inr (.inr (by simp [hus])))))
        · simp at hl
      · simp at hl
    · simp at hl
  | uFinish =>
    simp only [Sd.step] at hl
    split at hl
    · rename_i hc
      obtain rfl := Option.some.inj hl
      have ho := h.own
      rw [hc.1] at ho
      generalize hts : d.s.shutdowns.map (·.2) ++ d.s.streamTask.toList = ts at *
      have e0 : dropTriggers d.s = ts.foldl shutTask d.s := by unfold dropTriggers; rw [hts]
      obtain ⟨tasks, e⟩ := shutAll_eq ts d.s
      have hlen := shutAll_len ts d.s
      refine ⟨?_, ?_, ?_, ?_, ?_, ?_, ?_, ?_, ?_, h.trig⟩
      · refine (h.inv.shutAll ts).other ?_ ?_ ?_ ?_ ?_ ?_ ?_ ?_ ?_ <;> simp [uGone, e0]
      · intro i x hx hk hov
        left
        simp only [uGone, e0] at hx
        rw [shutAll_get] at hx
        cases hi : d.s.tasks[i]? with
        | none => simp [hi] at hx
        | some y =>
          simp only [hi, Option.map_some, Option.some.injEq] at hx
          by_cases hit : i ∈ ts
          · rw [if_pos hit] at hx; subst hx; rfl
          · rw [if_neg hit] at hx; subst hx
            rcases ho i y hi hk hov with h | ⟨_, hh⟩
            · exact h
            · exfalso; apply hit
              rw [← hts]
              rcases hh with ⟨p, hp, rfl⟩ | hh
              · exact List.mem_append_left _ (List.mem_map_of_mem hp)
              · simp [hh]
      · simp only [uGone, e0, Keys, e]; exact h.keys
      · intro _; exact ⟨rfl, rfl, hc.2⟩
      · intro hu; simp only [uGone, e0, e]; exact h.ush hu
      · intro l hl t ht
        rw [hc.2] at hl; simp only [Option.some.injEq] at hl; subst hl; simp at ht
      · intro t ts hl; rw [hc.2] at hl; simp at hl
      · intro ha; simp only [uGone, e0, e]; exact h.aend ha
      · intro _; exact h.told (.inr (.inr (.inr (.inr (by simp [hc.2])))))
    · simp at hl
  | lStop =>
    simp only [Sd.step] at hl
    split at hl
    · rename_i hc
      obtain rfl := Option.some.inj hl
      exact ⟨h.inv.other rfl rfl rfl (fun h => h) rfl rfl rfl (fun h => h) (fun h => h),
        h.own, h.keys, h.uend, h.ush, h.ushl, h.ushh, h.aend, fun _ => h.cancelled_iff.mp hc.1, h.trig⟩
    · simp at hl
  | lRefused =>
    simp only [Sd.step] at hl
    split at hl
    · obtain rfl := Option.some.inj hl
      exact ⟨h.inv.other rfl rfl rfl (fun h => h) rfl rfl rfl (fun h => h) (fun h => h),
        h.own, h.keys, h.uend, h.ush, h.ushl, h.ushh, h.aend, h.told, h.trig⟩
    · simp at hl
  | fStop =>
    simp only [Sd.step] at hl
    split at hl
    · rename_i hc
      obtain rfl := Option.some.inj hl
      exact ⟨h.inv.other rfl rfl rfl (by simp) rfl rfl rfl (fun h => h) (fun h => h),
        h.own, h.keys, h.uend, h.ush, h.ushl, h.ushh, h.aend, fun _ => h.cancelled_iff.mp hc.1, h.trig⟩
    · simp at hl
  | fRefused =>
    simp only [Sd.step] at hl
    split at hl
    · obtain rfl := Option.some.inj hl
      exact ⟨h.inv.other rfl rfl rfl (fun h => h) rfl rfl rfl (fun h => h) (fun h => h),
        h.own, h.keys, h.uend, h.ush, h.ushl, h.ushh, h.aend, h.told, h.trig⟩
    · simp at hl
  | tCanceled t =>
    simp only [Sd.step] at hl
    split at hl
    · rename_i x hx
      split at hl
      · rename_i hm
        obtain rfl := Option.some.inj hl
        have k : Keeps d.s (setTask d.s t { x with phase := cancelPhase R x }) :=
          keeps_setTask d.s t x _ hx (fun a b hp => absurd hp (cancelPhase_waiting R d x hm a b)) (fun h => h)
            (fun h hk => cancelPhase_trigger R x hk (h hk))
        have tr : Tr d.s (setTask d.s t { x with phase := cancelPhase R x }) :=
          Tr.set hx rfl rfl (over_phase x _ (by
            unfold cancelPhase; rintro (hp | hp) <;> simp [hp]))
        refine ⟨?_, h.own.tr tr rfl rfl, h.keys, h.uend, h.ush, ?_, ?_, h.aend, h.told, h.trig⟩
        · refine h.inv.keep k (fun _ _ h => h) h.inv.rx (fun t ht => ⟨(h.inv.cls t ht).1, .inl ht⟩) ?_ ?_ h.inv.ev
          · intro p hp; exact Nat.lt_of_lt_of_le (h.inv.sh p hp) k.len
          · intro p hp; exact Nat.lt_of_lt_of_le (h.inv.str p hp) k.len
        · intro l hu t ht; exact Nat.lt_of_lt_of_le (h.ushl l hu t ht) k.len
        · intro t tl hu
          obtain ⟨y, hy, hs⟩ := h.ushh t tl hu
          obtain ⟨x', hx', _, hs', _⟩ := tr.fwd t y hy
          exact ⟨x', hx', hs'.trans hs⟩
      · simp at hl
    · simp at hl

theorem Sd.run_induct (R : Nat) (P : Sd → Prop) (hp : ∀ d d' l, P d → d.step R l = some d' → P d') :
    ∀ (ls : List SLabel) (d d' : Sd), P d → d.run R ls = some d' → P d' := by
  intro ls
  induction ls with
  | nil => intro d d' h hr; simp only [Sd.run, Option.some.injEq] at hr; subst hr; exact h
  | cons l ls ih =>
    intro d d' h hr
    simp only [Sd.run] at hr
    split at hr
    · rename_i d1 h1
      exact ih d1 d' (hp d d1 l h h1) hr
    · simp at hr

theorem Sd.run_append (R : Nat) (d : Sd) (a b : List SLabel) :
    d.run R (a ++ b) = (d.run R a).bind fun d' => d'.run R b := by
  induction a generalizing d with
  | nil => rfl
  | cons l a ih =>
    simp only [List.cons_append, Sd.run]
    cases d.step R l with
    | none => rfl
    | some d' => exact ih d'

/-- Reached from the start of the logger. -/
def SReach (R : Nat) (d : Sd) : Prop := ∃ ls, Sd.run R {} ls = some d

theorem SReach.inv {R : Nat} {d : Sd} (h : SReach R d) : SInv d := by
  obtain ⟨ls, h⟩ := h
  exact Sd.run_induct R SInv (fun d d' l => sinv_step R d d' l) ls _ d sinv_init h

end Verif.Tasks
