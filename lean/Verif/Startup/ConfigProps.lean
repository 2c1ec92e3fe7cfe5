import Verif.Startup.Config

/-
C22: a cached logger configuration is tried once.
-/
namespace Verif.Startup

variable {Cfg : Type}

def CfgObs.fromDisk : CfgObs Cfg → Bool
  | .attempt .disk _ _ => true
  | _ => false

/-- `u` was applied successfully and no cached configuration was tried after that. -/
def AppliedSince (obs : List (CfgObs Cfg)) (u : Upd Cfg) : Prop :=
  ∃ pre post src, obs = pre ++ [.attempt src u .ok] ++ post ∧ ∀ o ∈ post, o.fromDisk = false

/-- Nonce of the last successful application since the last process start. -/
def lastApplied : List (CfgObs Cfg) → Option String → Option String
  | [], acc => acc
  | .started :: os, _ => lastApplied os none
  | .attempt _ u .ok :: os, _ => lastApplied os (some u.nonce)
  | .attempt _ _ _ :: os, acc => lastApplied os acc

theorem lastApplied_append (a b : List (CfgObs Cfg)) : ∀ acc,
    lastApplied (a ++ b) acc = lastApplied b (lastApplied a acc) := by
  induction a with
  | nil => intro acc; rfl
  | cons o a ih =>
    intro acc
    cases o with
    | started => exact ih _
    | attempt s u out => cases out <;> exact ih _

theorem AppliedSince.append {obs o : List (CfgObs Cfg)} {u : Upd Cfg} (h : AppliedSince obs u)
    (ho : ∀ x ∈ o, x.fromDisk = false) : AppliedSince (obs ++ o) u := by
  obtain ⟨pre, post, src, rfl, hp⟩ := h
  refine ⟨pre, post ++ o, src, by simp, ?_⟩
  intro x hx
  rcases List.mem_append.mp hx with h | h
  · exact hp x h
  · exact ho x h

/-- Invariant: whatever readable configuration is in the file was applied successfully, and no cached
configuration was tried since. -/
def Conf.Inv (c : Conf Cfg) (obs : List (CfgObs Cfg)) : Prop :=
  (∀ u, c.file = some (some u) → AppliedSince obs u) ∧ c.version = lastApplied obs none

theorem Conf.process_inv (c : Conf Cfg) (obs : List (CfgObs Cfg)) (src : Source) (u : Upd Cfg) (out : Outcome)
    (w : Wr) (h : c.Inv obs) (hd : src = .disk → c.file = none) :
    (c.process src u out w).1.Inv (obs ++ (c.process src u out w).2) := by
  obtain ⟨hf, hv⟩ := h
  unfold Conf.process
  cases hu : u.cfg with
  | none => simpa using ⟨hf, hv⟩
  | some g =>
    have hnon : ∀ o, o ≠ .ok → (c.Inv (obs ++ [.attempt src u o])) := by
      intro o ho
      refine ⟨?_, ?_⟩
      · intro u' hu'
        refine (hf u' hu').append ?_
        intro x hx
        simp only [List.mem_singleton] at hx
        subst hx
        cases src with
        | disk => rw [hd rfl] at hu'; simp at hu'
        | server => rfl
      · rw [lastApplied_append, ← hv]
        cases o <;> simp_all [lastApplied]
    cases out with
    | err => exact hnon _ (by simp)
    | die => exact hnon _ (by simp)
    | ok =>
      refine ⟨?_, ?_⟩
      · intro u' hu'
        cases w with
        | ok =>
          simp at hu'
          subst hu'
          exact ⟨obs, [], src, by simp, by simp⟩
        | fail =>
          refine (hf u' hu').append ?_
          intro x hx
          simp only [List.mem_singleton] at hx
          subst hx
          cases src with
          | disk => simp only at hu'; rw [hd rfl] at hu'; simp at hu'
          | server => rfl
        | torn => simp at hu'
      · rw [lastApplied_append]; rfl

theorem Conf.step_inv (c : Conf Cfg) (obs : List (CfgObs Cfg)) (e : CfgEv Cfg) (h : c.Inv obs) :
    (c.step e).1.Inv (obs ++ (c.step e).2) := by
  cases e with
  | server u out w => exact Conf.process_inv c obs .server u out w h (by simp)
  | start r m d out w =>
    obtain ⟨file, version⟩ := c
    obtain ⟨hf, hv⟩ := h
    simp only at hf hv
    have hbase : ∀ f : Option (Option (Upd Cfg)), (f = file ∨ f = none) →
        (Conf.mk f none).Inv (obs ++ [.started]) := by
      intro f hff
      refine ⟨?_, by rw [lastApplied_append]; rfl⟩
      intro u hu
      rcases hff with rfl | rfl
      · exact (hf u hu).append (by simp [CfgObs.fromDisk])
      · simp at hu
    simp only [Conf.step]
    cases file with
    | none => exact hbase none (Or.inl rfl)
    | some content =>
      simp only
      split
      · exact hbase _ (Or.inl rfl)
      · cases content with
        | none => exact hbase none (Or.inr rfl)
        | some u =>
          simp only
          split
          · exact hbase none (Or.inr rfl)
          · have := Conf.process_inv ⟨none, none⟩ (obs ++ [.started]) .disk u out w (hbase none (Or.inr rfl))
              (fun _ => rfl)
            simpa using this

theorem Conf.run_inv (es : List (CfgEv Cfg)) : ∀ (c : Conf Cfg) (obs : List (CfgObs Cfg)), c.Inv obs →
    (c.run es).Inv (obs ++ c.obs es) := by
  induction es with
  | nil => intro c obs h; simpa [Conf.run, Conf.obs] using h
  | cons e es ih =>
    intro c obs h
    have := ih _ _ (Conf.step_inv c obs e h)
    simpa [Conf.run, Conf.obs] using this

theorem Conf.new_inv : (Conf.mk (Cfg := Cfg) none none).Inv [] :=
  ⟨by simp, rfl⟩

theorem Conf.obs_append (es es' : List (CfgEv Cfg)) : ∀ c : Conf Cfg,
    c.obs (es ++ es') = c.obs es ++ (c.run es).obs es' := by
  induction es with
  | nil => intro c; rfl
  | cons e es ih => intro c; simp [Conf.obs, Conf.run, ih]

/-- What one step observes: at most one attempt, which is preceded by at most a start. -/
theorem Conf.step_obs (c : Conf Cfg) (e : CfgEv Cfg) (u : Upd Cfg) (out : Outcome)
    (h : .attempt .disk u out ∈ (c.step e).2) :
    c.file = some (some u) ∧ (c.step e).2 = [.started, .attempt .disk u out] := by
  have hp : ∀ (c : Conf Cfg) (src : Source) (u : Upd Cfg) (o : Outcome) (w : Wr),
      (c.process src u o w).2 = [] ∨ (c.process src u o w).2 = [.attempt src u o] := by
    intro c src u o w
    unfold Conf.process
    cases u.cfg with
    | none => exact Or.inl rfl
    | some g => cases o <;> exact Or.inr rfl
  cases e with
  | server u' o w =>
    simp only [Conf.step] at h
    rcases hp c .server u' o w with h1 | h1 <;> rw [h1] at h <;> simp at h
  | start r m d o w =>
    obtain ⟨file, version⟩ := c
    simp only [Conf.step] at h ⊢
    cases file with
    | none => simp at h
    | some content =>
      simp only at h ⊢
      split at h
      · simp at h
      · rename_i hc
        rw [if_neg hc]
        cases content with
        | none => simp at h
        | some u' =>
          simp only at h ⊢
          split at h
          · simp at h
          · rename_i hd
            rw [if_neg hd]
            rcases hp ⟨none, none⟩ .disk u' o w with h1 | h1
            · rw [h1] at h; simp at h
            · rw [h1] at h ⊢
              simp at h
              obtain ⟨rfl, rfl⟩ := h
              exact ⟨rfl, rfl⟩

/-- C22: in every history starting on a fresh device — with any file failure, any failing or crashing
application, and the process dying at any point — whenever a cached configuration is tried, the same
configuration was applied successfully before and no cached configuration was tried since then.  In
particular a cached configuration whose application crashed or failed is not tried from disk again
unless it was applied successfully in between. -/
theorem C22_tried_once (es : List (CfgEv Cfg)) (before after : List (CfgObs Cfg)) (u : Upd Cfg) (out : Outcome)
    (h : (Conf.mk none none).obs es = before ++ [.attempt .disk u out] ++ after) :
    AppliedSince before u := by
  suffices H : ∀ (es : List (CfgEv Cfg)) (c : Conf Cfg) (obs before after : List (CfgObs Cfg)), c.Inv obs →
      obs.length ≤ before.length →
      obs ++ c.obs es = before ++ [.attempt .disk u out] ++ after → AppliedSince before u by
    exact H es ⟨none, none⟩ [] before after Conf.new_inv (by simp) (by simpa using h)
  intro es
  induction es with
  | nil =>
    intro c obs before after _ hlen h
    have := congrArg List.length h
    simp [Conf.obs] at this
    omega
  | cons e es ih =>
    intro c obs before after hinv hlen h
    simp only [Conf.obs] at h
    by_cases hl : (obs ++ (c.step e).2).length ≤ before.length
    · exact ih _ _ before after (Conf.step_inv c obs e hinv) hl (by simpa using h)
    · -- the attempt belongs to this step
      obtain ⟨mid, hmid⟩ : ∃ mid, before = obs ++ mid := by
        have hpre : obs <+: before := by
          refine List.prefix_of_prefix_length_le (l₃ := obs ++ ((c.step e).2 ++ (c.step e).1.obs es)) ?_ ?_ hlen
          · exact List.prefix_append _ _
          · rw [h]; simp
        obtain ⟨mid, hm⟩ := hpre
        exact ⟨mid, hm.symm⟩
      subst hmid
      have h' : (c.step e).2 ++ (c.step e).1.obs es = mid ++ ([.attempt .disk u out] ++ after) := by
        simpa using h
      have hlen' : mid.length < (c.step e).2.length := by
        simp at hl; omega
      have hget : (c.step e).2[mid.length]? = some (.attempt .disk u out) := by
        have := congrArg (fun l => l[mid.length]?) h'
        rw [List.getElem?_append_left hlen'] at this
        rw [this]; simp
      have hmem : .attempt .disk u out ∈ (c.step e).2 := List.mem_of_getElem? hget
      obtain ⟨hfile, hobs⟩ := Conf.step_obs c e u out hmem
      rw [hobs] at h' hget hlen'
      have hm1 : mid = [.started] := by
        match mid, h', hget, hlen' with
        | [], h', hget, _ => simp at hget
        | [x], h', _, _ => simp at h'; rw [h'.1]
        | x :: y :: m, _, _, hlen' => exact absurd hlen' (by simp)
      subst hm1
      exact (hinv.1 u hfile).append (by simp [CfgObs.fromDisk])

/-- C22: the version reported in the handshake is that of the last configuration applied successfully
in this process (empty if none). -/
theorem C22_version (es : List (CfgEv Cfg)) :
    ((Conf.mk none none).run es).handshakeVersion =
      (lastApplied ((Conf.mk none none).obs es) none).getD "" := by
  have := (Conf.run_inv es ⟨none, none⟩ [] Conf.new_inv).2
  simp only [List.nil_append] at this
  simp [Conf.handshakeVersion, this]

/-- C22: a failed write leaves the file of before; the configuration is in force all the same. -/
theorem C22_unwritten (c : Conf Cfg) (u : Upd Cfg) (h : u.cfg ≠ none) :
    (c.step (.server u .ok .fail)).1 = ⟨c.file, some u.nonce⟩ := by
  cases hc : u.cfg with
  | none => exact absurd hc h
  | some x => simp [Conf.step, Conf.process, hc]

/-- C22: after a torn write there is a file; the configuration is in force all the same, and the first start that can read and remove the
file tries nothing and leaves none. -/
theorem C22_torn (c : Conf Cfg) (u : Upd Cfg) (h : u.cfg ≠ none) (die : Bool) (out : Outcome) (w : Wr) :
    let c1 := (c.step (.server u .ok .torn)).1
    c1.file.isSome = true ∧ c1.version = some u.nonce ∧
    c1.step (.start true true die out w) = (⟨none, none⟩, [.started]) := by
  cases hc : u.cfg with
  | none => exact absurd hc h
  | some x => simp [Conf.step, Conf.process, hc]

/-- C22: a cached configuration that cannot be read or removed is not tried, and stays where it is. -/
theorem C22_not_removed (c : Conf Cfg) (readOk removeOk die : Bool) (out : Outcome) (w : Wr)
    (h : (readOk && removeOk) = false) :
    (c.step (.start readOk removeOk die out w)).2 = [.started] ∧
    (c.step (.start readOk removeOk die out w)).1 = ⟨c.file, none⟩ := by
  obtain ⟨file, version⟩ := c
  cases file with
  | none => exact ⟨rfl, rfl⟩
  | some u => cases readOk <;> cases removeOk <;> first | exact ⟨rfl, rfl⟩ | cases h

/-- C22: a process that dies after it removed the file and before it applied the configuration leaves nothing to try. -/
theorem C22_dies (c : Conf Cfg) (u : Upd Cfg) (out : Outcome) (w : Wr) (h : c.file = some (some u)) :
    c.step (.start true true true out w) = (⟨none, none⟩, [.started]) := by
  simp [Conf.step, h]

/-- A configuration for `C22_torn` and `C22_unwritten`. -/
example : (⟨"v1", some 3⟩ : Upd Nat).cfg ≠ none ∧
    ((Conf.mk (some (some ⟨"v0", some 2⟩)) (some "v0")).step (.server (⟨"v1", some 3⟩ : Upd Nat) .ok .torn)).1 = ⟨some none, some "v1"⟩ := by decide

/-- Applied from the server, loaded at the next start where it crashes, not tried at the third start. -/
example :
    let u : Upd Nat := ⟨"v1", some 3⟩
    let es : List (CfgEv Nat) := [.server u .ok .ok, .start true true false .die .ok, .start true true false .ok .ok]
    (Conf.mk none none).obs es = [.attempt .server u .ok, .started, .attempt .disk u .die, .started] ∧
    ((Conf.mk none none).run (es ++ [.server u .ok .ok])).handshakeVersion = "v1" ∧
    ((Conf.mk none none).run es).handshakeVersion = "" := by decide

end Verif.Startup
