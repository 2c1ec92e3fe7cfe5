import Verif.Startup.Files
import Verif.Proto.WireTorn
import Verif.Time.Props
/-
C104: a file that was not written to the end.
-/
namespace Verif.Files

open Handshake (Bytes varint readVarint readField)
open Wire (Msg MsgF V table schema write read Fits FitsF Before ixConfigurationUpdate ixRuntimeUpdate C103_tables C103_roundtrip C104_cut readField_ext)
open Startup (Outcome Source)

variable {d : Nat}

/-- Configurations of the server are messages of the protocol. -/
def Ev.Fits (utf8 : Bytes → Bool) : Ev (Msg d) → Prop
  | .server u _ _ => Wire.Fits schema utf8 (d + 1) ixConfigurationUpdate u
  | _ => True

def Obs.fromDisk {M : Type} : Obs M → Prop
  | .attempt .disk _ _ _ => True
  | _ => False

/-- The configuration was applied with success, and none was tried from the file since. -/
def AppliedSince {M : Type} (obs : List (Obs M)) (n : Bytes) (s : M) : Prop :=
  ∃ pre post src, obs = pre ++ [.attempt src n s .ok] ++ post ∧ ∀ o ∈ post, ¬ o.fromDisk

theorem AppliedSince.append {M : Type} {obs o : List (Obs M)} {n : Bytes} {s : M} (h : AppliedSince obs n s) (ho : ∀ x ∈ o, ¬ x.fromDisk) : AppliedSince (obs ++ o) n s := by
  obtain ⟨pre, post, src, rfl, hp⟩ := h
  refine ⟨pre, post ++ o, src, by simp, fun x hx => ?_⟩
  rcases List.mem_append.1 hx with h | h
  · exact hp x h
  · exact ho x h

/-! ### An update that was cut -/

theorem update_fields : schema.fields ixConfigurationUpdate = Wire.s34 := by decide +kernel

theorem index_lt {utf8 : Bytes → Bool} {u : MsgF (Msg d)} (h : Wire.Fits schema utf8 (d + 1) ixConfigurationUpdate u) : u.known.Pairwise fun x y => x.1 < y.1 := by
  have h : FitsF (Wire.Fits schema utf8 d) (Wire.HasKey d) utf8 (schema.fields ixConfigurationUpdate) u := h
  rw [update_fields] at h
  refine h.2.1.imp ?_
  rintro x y (⟨h, _⟩ | ⟨_, s, hs, hl⟩)
  · exact h
  · exfalso
    match hx : x.1 with
    | 0 => rw [hx] at hs; cases hs; simp at hl
    | 1 => rw [hx] at hs; cases hs; simp at hl
    | k + 2 => rw [hx] at hs; simp [Wire.s34] at hs

theorem find_take {α : Type} {p : α → Bool} {l : List α} {i : Nat} {x : α} (h : (l.take i).find? p = some x) : l.find? p = some x := by
  rw [← List.take_append_drop i l, List.find?_append, h]
  rfl

/-- What has the configuration has the nonce. -/
theorem cut_update {utf8 : Bytes → Bool} {u : MsgF (Msg d)} (h : Wire.Fits schema utf8 (d + 1) ixConfigurationUpdate u) {i j : Nat} {s : Msg d}
    (hs : sotwOf ⟨u.known.take i, u.unknown.take j⟩ = some s) : sotwOf u = some s ∧ nonceOf u = nonceOf ⟨u.known.take i, u.unknown.take j⟩ := by
  have hlt := index_lt h
  unfold sotwOf at hs
  dsimp only at hs
  cases hf : (u.known.take i).find? (fun x => decide (x.1 = 1)) with
  | none => rw [hf] at hs; cases hs
  | some y =>
    rw [hf] at hs
    refine ⟨by unfold sotwOf; rw [find_take hf]; exact hs, ?_⟩
    unfold nonceOf
    dsimp only
    cases h0 : (u.known.take i).find? (fun x => decide (x.1 = 0)) with
    | some x => rw [find_take h0]
    | none =>
      rw [← List.take_append_drop i u.known] at hlt ⊢
      rw [List.find?_append, h0, List.find?_eq_none.2]
      · rfl
      intro x hx
      have hy := List.mem_of_find?_eq_some hf
      have hy1 := List.find?_some hf
      have := (List.pairwise_append.1 hlt).2.2 y hy x hx
      simp only [decide_eq_true_eq] at hy1 ⊢
      omega

/-! ### The invariant -/

def Conf.Inv (utf8 : Bytes → Bool) (c : Conf) (obs : List (Obs (Msg d))) : Prop :=
  ∀ bs, c.file = some bs → ∃ (u : MsgF (Msg d)) (s : Msg d), Wire.Fits schema utf8 (d + 1) ixConfigurationUpdate u ∧ sotwOf u = some s ∧
    bs <+: write table (d + 1) ixConfigurationUpdate u ∧ AppliedSince obs (nonceOf u) s

theorem process_inv {utf8 : Bytes → Bool} {c : Conf} {obs : List (Obs (Msg d))} (src : Source) {u : MsgF (Msg d)} (out : Outcome) (w : Wrote) (h : c.Inv utf8 obs)
    (hd : src = .disk → c.file = none) (hu : Wire.Fits schema utf8 (d + 1) ixConfigurationUpdate u) : (c.process src u out w).1.Inv utf8 (obs ++ (c.process src u out w).2) := by
  unfold Conf.process
  cases hs : sotwOf u with
  | none => simpa using h
  | some s =>
    dsimp only
    have hold : ∀ o, c.Inv utf8 (obs ++ [.attempt src (nonceOf u) s o]) := by
      intro o bs hbs
      obtain ⟨u', s', h1, h2, h3, h4⟩ := h bs hbs
      refine ⟨u', s', h1, h2, h3, h4.append ?_⟩
      intro x hx
      rw [List.mem_singleton] at hx
      subst hx
      cases src with
      | disk => rw [hd rfl] at hbs; cases hbs
      | server => exact id
    cases out with
    | err => exact hold _
    | die => exact hold _
    | ok =>
      dsimp only
      have happ : AppliedSince (obs ++ [.attempt src (nonceOf u) s .ok]) (nonceOf u) s := ⟨obs, [], src, by simp, nofun⟩
      intro bs hbs
      cases w with
      | ok =>
        cases hbs
        exact ⟨u, s, hu, hs, List.prefix_refl _, happ⟩
      | fail => exact hold .ok bs hbs
      | cut k =>
        cases hbs
        exact ⟨u, s, hu, hs, List.take_prefix _ _, happ⟩

theorem step_inv {utf8 : Bytes → Bool} {c : Conf} {obs : List (Obs (Msg d))} (h : c.Inv utf8 obs) {e : Ev (Msg d)} (he : e.Fits utf8) :
    (c.step utf8 e).1.Inv utf8 (obs ++ (c.step utf8 e).2) := by
  cases e with
  | server u out w => exact process_inv .server out w h nofun he
  | start r m die out w =>
    have hnone : Conf.Inv utf8 ⟨none, none⟩ (obs ++ [Obs.started (M := Msg d)]) := nofun
    simp only [Conf.step]
    cases hf : c.file with
    | none => exact hnone
    | some bs =>
      dsimp only
      split
      · intro bs' hb
        cases hb
        obtain ⟨u, s, h1, h2, h3, h4⟩ := h bs hf
        exact ⟨u, s, h1, h2, h3, h4.append (by simp [Obs.fromDisk])⟩
      · split
        · exact hnone
        · obtain ⟨u, s, h1, h2, h3, h4⟩ := h bs hf
          rcases C104_cut C103_tables.1 C103_tables.2 utf8 d ixConfigurationUpdate u h1 bs h3 with hr | ⟨i, j, _, hr, hfit⟩
          · rw [hr]
            exact hnone
          · rw [hr]
            dsimp only
            have := process_inv (c := ⟨none, none⟩) .disk out w hnone (fun _ => rfl) hfit
            rw [List.append_assoc] at this
            exact this

theorem process_obs {c : Conf} {src : Source} {u : MsgF (Msg d)} {out : Outcome} {w : Wrote} :
    (c.process src u out w).2 = [] ∨ ∃ s, sotwOf u = some s ∧ (c.process src u out w).2 = [.attempt src (nonceOf u) s out] := by
  unfold Conf.process
  cases hs : sotwOf u with
  | none => exact Or.inl rfl
  | some s => cases out <;> exact Or.inr ⟨s, rfl, rfl⟩

/-- A step that tries something from the file. -/
theorem step_disk {utf8 : Bytes → Bool} {c : Conf} {obs : List (Obs (Msg d))} (h : c.Inv utf8 obs) {e : Ev (Msg d)} {n : Bytes} {s : Msg d} {out : Outcome}
    {before after : List (Obs (Msg d))} (ho : (c.step utf8 e).2 = before ++ [.attempt .disk n s out] ++ after) : before = [.started] ∧ AppliedSince obs n s := by
  cases e with
  | server u out' w =>
    exfalso
    have hmem : Obs.attempt .disk n s out ∈ (Conf.process c .server u out' w).2 := by
      have : (c.step utf8 (.server u out' w)).2 = (Conf.process c .server u out' w).2 := rfl
      rw [← this, ho]
      simp
    rcases process_obs (c := c) (src := .server) (u := u) (out := out') (w := w) with h0 | ⟨s', _, h0⟩
    · rw [h0] at hmem; cases hmem
    · rw [h0] at hmem; simp at hmem
  | start r m die out' w =>
    have hstart : ∀ b a : List (Obs (Msg d)), [Obs.started] = b ++ [.attempt .disk n s out] ++ a → False := by
      intro b a hx
      have hm : Obs.attempt .disk n s out ∈ [Obs.started (M := Msg d)] := by rw [hx]; simp
      simp at hm
    simp only [Conf.step] at ho
    cases hf : c.file with
    | none => rw [hf] at ho; exact (hstart _ _ ho).elim
    | some bs =>
      rw [hf] at ho
      dsimp only at ho
      split at ho
      · exact (hstart _ _ ho).elim
      · split at ho
        · exact (hstart _ _ ho).elim
        · obtain ⟨u, s0, h1, h2, h3, h4⟩ := h bs hf
          rcases C104_cut C103_tables.1 C103_tables.2 utf8 d ixConfigurationUpdate u h1 bs h3 with hr | ⟨i, j, _, hr, hfit⟩
          · rw [hr] at ho
            exact (hstart _ _ ho).elim
          · rw [hr] at ho
            dsimp only at ho
            rcases process_obs (c := ⟨none, none⟩) (src := .disk) (u := (⟨u.known.take i, u.unknown.take j⟩ : MsgF (Msg d))) (out := out') (w := w) with h0 | ⟨s', hs', h0⟩
            · rw [h0] at ho
              exact (hstart _ _ ho).elim
            · rw [h0] at ho
              obtain ⟨e1, e2⟩ := cut_update h1 hs'
              match before, ho with
              | [], ho => simp at ho
              | [b], ho =>
                simp only [List.cons_append, List.nil_append, List.cons.injEq, Obs.attempt.injEq] at ho
                obtain ⟨hb, ⟨_, hn, hss, _⟩, _⟩ := ho
                refine ⟨by rw [← hb], ?_⟩
                rw [← hn, ← hss, ← e2]
                rw [h2] at e1
                cases e1
                exact h4
              | b :: b' :: bs, ho =>
                have := congrArg List.length ho
                simp at this

/-- **C104.** Whatever happens to the file of the logger configuration - every write may end after any number of bytes - a
configuration that is tried from it, with the version it is reported under, was applied with success before, and none was tried from
the file since then. -/
theorem C104_config (utf8 : Bytes → Bool) (es : List (Ev (Msg d))) (hes : ∀ e ∈ es, e.Fits utf8) (before after : List (Obs (Msg d))) (n : Bytes) (s : Msg d) (out : Outcome)
    (h : (Conf.mk none none).obs utf8 es = before ++ [.attempt .disk n s out] ++ after) : AppliedSince before n s := by
  suffices H : ∀ (es : List (Ev (Msg d))), (∀ e ∈ es, e.Fits utf8) → ∀ (c : Conf) (obs before after : List (Obs (Msg d))), c.Inv utf8 obs →
      c.obs utf8 es = before ++ [.attempt .disk n s out] ++ after → AppliedSince (obs ++ before) n s by
    simpa using H es hes ⟨none, none⟩ [] before after nofun h
  intro es
  induction es with
  | nil => intro _ c obs before after _ h; simp [Conf.obs] at h
  | cons e es ih =>
    intro hes c obs before after hi h
    rw [Conf.obs] at h
    have hi' := step_inv hi (hes e (by simp))
    rw [List.append_assoc] at h
    rcases List.append_eq_append_iff.1 h with ⟨x, hx, hy⟩ | ⟨x, hx, hy⟩
    · -- the attempt is in a later step
      have := ih (fun e he => hes e (by simp [he])) _ (obs ++ (c.step utf8 e).2) x after hi' (by rw [hy]; simp)
      rw [hx, ← List.append_assoc]
      exact this
    · cases x with
      | nil =>
        simp only [List.append_nil] at hx
        simp only [List.nil_append] at hy
        have := ih (fun e he => hes e (by simp [he])) _ (obs ++ (c.step utf8 e).2) [] after hi' (by rw [← hy]; simp)
        rw [← hx]
        simpa using this
      | cons a x =>
        rw [List.cons_append] at hy
        simp only [List.cons_append, List.nil_append, List.cons.injEq] at hy
        obtain ⟨ha, hy⟩ := hy
        subst ha
        have hd := step_disk hi (n := n) (s := s) (out := out) (before := before) (after := x) (by rw [hx]; simp)
        rw [hd.1]
        exact hd.2.append (by simp [Obs.fromDisk])

theorem find_unique {M : Type} {l : List (Nat × V M)} (hl : l.Pairwise fun x y => x.1 < y.1) {x : Nat × V M} (hx : x ∈ l) : l.find? (fun y => decide (y.1 = x.1)) = some x := by
  induction l with
  | nil => cases hx
  | cons a l ih =>
    rw [List.pairwise_cons] at hl
    rcases List.mem_cons.1 hx with rfl | h
    · simp
    · rw [List.find?_cons_of_neg, ih hl.2 h]
      have := hl.1 x h
      simp only [decide_eq_true_eq]
      omega

/-- The version and the configuration of an update. -/
theorem update_parts {utf8 : Bytes → Bool} {u : MsgF (Msg d)} (hu : Wire.Fits schema utf8 (d + 1) ixConfigurationUpdate u) :
    (∀ s, (1, .msg s) ∈ u.known → sotwOf u = some s) ∧ (∀ b, (0, .bytes b) ∈ u.known → nonceOf u = b) ∧ ((∀ v, (0, v) ∉ u.known) → nonceOf u = []) := by
  have hl := index_lt hu
  refine ⟨fun s hs => ?_, fun b hb => ?_, fun hn => ?_⟩
  · unfold sotwOf; rw [find_unique hl hs]
  · unfold nonceOf; rw [find_unique hl hb]
  · unfold nonceOf
    rw [List.find?_eq_none.2]
    rintro ⟨i, v⟩ hx
    simp only [decide_eq_true_eq]
    rintro rfl
    exact hn v hx

/-- C104: what a failed write leaves: the file of before; the configuration is in force all the same. -/
theorem C104_unwritten (utf8 : Bytes → Bool) (c : Conf) (u : MsgF (Msg d)) (s : Msg d) (hs : sotwOf u = some s) :
    (c.step utf8 (.server u .ok .fail)).1 = ⟨c.file, some (nonceOf u)⟩ := by
  simp [Conf.step, Conf.process, hs, Wrote.file]

/-- C104: a process that dies after it removed the file leaves nothing to the next one, so a configuration that ends the process is tried
once: the starts that follow try nothing from the file, until the server has sent a configuration. -/
theorem C104_died (utf8 : Bytes → Bool) (c : Conf) (out : Outcome) (w : Wrote) (es : List (Ev (Msg d)))
    (hes : ∀ e ∈ es, ∀ u o w', e ≠ .server u o w') :
    ((c.step (d := d) utf8 (.start true true true out w)).1.run utf8 es).file = none ∧
    ∀ o ∈ c.obs (d := d) utf8 (.start true true true out w :: es), o = .started := by
  have h0 : (c.step (d := d) utf8 (.start true true true out w)) = (⟨none, none⟩, [.started]) := by
    obtain ⟨file, version⟩ := c
    cases file <;> rfl
  have key : ∀ es : List (Ev (Msg d)), (∀ e ∈ es, ∀ u o w', e ≠ .server u o w') →
      ((⟨none, none⟩ : Conf).run utf8 es).file = none ∧ ∀ o ∈ (⟨none, none⟩ : Conf).obs utf8 es, o = .started := by
    intro es
    induction es with
    | nil => intro _; exact ⟨rfl, nofun⟩
    | cons e es ih =>
      intro h
      have hi := ih fun e' he' => h e' (.tail _ he')
      cases e with
      | server u o w' => exact absurd rfl (h _ (.head _) u o w')
      | start r m k o w' =>
        refine ⟨hi.1, fun x hx => ?_⟩
        rcases List.mem_append.1 (show x ∈ [Obs.started] ++ _ from hx) with hx | hx
        · exact List.mem_singleton.1 hx
        · exact hi.2 x hx
  have hk := key es hes
  refine ⟨by rw [h0]; exact hk.1, fun o ho => ?_⟩
  rw [Conf.obs, h0] at ho
  rcases List.mem_append.1 ho with ho | ho
  · exact List.mem_singleton.1 ho
  · exact hk.2 o ho

/-- C104: a configuration file that cannot be read or removed is not tried, and stays as it is. -/
theorem C104_not_removed (utf8 : Bytes → Bool) (c : Conf) (readOk removeOk die : Bool) (out : Outcome) (w : Wrote)
    (h : (readOk && removeOk) = false) :
    (c.step (d := d) utf8 (.start readOk removeOk die out w)).2 = [.started] ∧
    (c.step (d := d) utf8 (.start readOk removeOk die out w)).1 = ⟨c.file, none⟩ := by
  obtain ⟨file, version⟩ := c
  cases file with
  | none => exact ⟨rfl, rfl⟩
  | some u => cases readOk <;> cases removeOk <;> first | exact ⟨rfl, rfl⟩ | cases h

/-- **C104.** A configuration that was written to the end is the one that is tried at the next start, under its version. -/
theorem C104_config_back (utf8 : Bytes → Bool) (c : Conf) (u : MsgF (Msg d)) (hu : Wire.Fits schema utf8 (d + 1) ixConfigurationUpdate u) (s : Msg d) (hs : (1, .msg s) ∈ u.known)
    (n : Bytes) (hn : (0, .bytes n) ∈ u.known ∨ n = [] ∧ ∀ v, (0, v) ∉ u.known) (out : Outcome) (w : Wrote) :
    c.obs utf8 [.server u .ok .ok, .start true true false out w] = [.attempt .server n s .ok, .started, .attempt .disk n s out] ∧
    (c.run utf8 [.server u .ok .ok, .start true true false .ok .ok]) = ⟨some (write table (d + 1) ixConfigurationUpdate u), some n⟩ := by
  have hr := C103_roundtrip C103_tables.1 C103_tables.2 utf8 (d + 1) ixConfigurationUpdate u hu
  obtain ⟨h1, h2, h3⟩ := update_parts hu
  have hs := h1 s hs
  obtain rfl : nonceOf u = n := by
    rcases hn with h | ⟨rfl, h⟩
    · exact h2 n h
    · exact h3 h
  constructor
  · simp only [Conf.obs, Conf.step, Conf.process, hs, Wrote.file, hr, Bool.not_true, Bool.or_self, Bool.false_eq_true, if_false]
    cases out <;> rfl
  · simp only [Conf.run, Conf.step, Conf.process, hs, Wrote.file, hr, Bool.not_true, Bool.or_self, Bool.false_eq_true, if_false]

/-! ### Compressed files -/

/-- What is asked of zlib: what was compressed is decompressed, and a part of it, unless it is empty, is refused. -/
structure Zlib (z : Bytes → Bytes) (u : Bytes → Option Bytes) : Prop where
  whole : ∀ b, u (z b) = some b
  nonempty : ∀ b, z b ≠ []
  cut : ∀ b p, p <+: z b → p ≠ [] → p ≠ z b → u p = none

/-- **C104.** A compressed file of any message that was written to the end gives the message, one that was not is refused. -/
theorem C104_compressed {z : Bytes → Bytes} {u : Bytes → Option Bytes} (hz : Zlib z u) (utf8 : Bytes → Bool) (d ix : Nat) (m : Msg d) (h : Fits schema utf8 d ix m) (p : Bytes)
    (hp : p <+: writeCompressed z d ix m) :
    readCompressed u utf8 d ix (writeCompressed z d ix m) = some m ∧ (p ≠ writeCompressed z d ix m → readCompressed u utf8 d ix p = none) := by
  unfold readCompressed writeCompressed at *
  constructor
  · rw [if_neg (by simpa using hz.nonempty _), hz.whole]
    exact C103_roundtrip C103_tables.1 C103_tables.2 utf8 d ix m h
  · intro hne
    cases p with
    | nil => rfl
    | cons b p => rw [if_neg (by simp), hz.cut _ _ hp (by simp) hne]; rfl

/-- **C104 (partial).** The runtime configuration that was written to the end is loaded; of a file that was cut, what is loaded is what
its bytes happen to say as a message that is not compressed.  Missing: that nothing is loaded; see `C104_runtime_violated`. -/
theorem C104_runtime_partial {z : Bytes → Bytes} {u : Bytes → Option Bytes} (hz : Zlib z u) (utf8 : Bytes → Bool) (d : Nat) (m : Msg d) (h : Fits schema utf8 d ixRuntimeUpdate m)
    (p : Bytes) (hp : p <+: writeCompressed z d ixRuntimeUpdate m) :
    loadRuntime u utf8 d (writeCompressed z d ixRuntimeUpdate m) = some m ∧
    (p ≠ writeCompressed z d ixRuntimeUpdate m → read table utf8 d ixRuntimeUpdate p = none → loadRuntime u utf8 d p = none) := by
  obtain ⟨h1, h2⟩ := C104_compressed hz utf8 d ixRuntimeUpdate m h p hp
  unfold loadRuntime
  exact ⟨by rw [h1]; rfl, fun hne hr => by rw [h2 hne, hr]; rfl⟩

theorem runtime_fields : table.fields ixRuntimeUpdate = Wire.m36 := by decide +kernel

/-- **C104 (violated).** Whatever runtime configuration was stored and whatever zlib does: if nothing of it reached the disk, or only the
two bytes of the header, an empty configuration is loaded from the file as if it had been stored. -/
theorem C104_runtime_violated {z : Bytes → Bytes} {u : Bytes → Option Bytes} (hz : Zlib z u) (utf8 : Bytes → Bool) (d : Nat) (m : Msg (d + 1)) :
    (∃ p, p <+: writeCompressed z (d + 1) ixRuntimeUpdate m ∧ p ≠ writeCompressed z (d + 1) ixRuntimeUpdate m ∧
      loadRuntime u utf8 (d + 1) p = some (⟨[], []⟩ : MsgF (Msg d))) ∧
    ((∀ b, ∃ x y t, z b = 120 :: 94 :: x :: y :: t) → ∃ p, p.length = 2 ∧ p <+: writeCompressed z (d + 1) ixRuntimeUpdate m ∧
      loadRuntime u utf8 (d + 1) p = some (⟨[], [(15, .varint 94)]⟩ : MsgF (Msg d))) := by
  constructor
  · exact ⟨[], List.nil_prefix, (hz.nonempty _).symm, rfl⟩
  · intro hh
    obtain ⟨x, y, t, ht⟩ := hh (write table (d + 1) ixRuntimeUpdate m)
    have hp : [120, 94] <+: writeCompressed z (d + 1) ixRuntimeUpdate m := by
      unfold writeCompressed
      rw [ht]
      exact ⟨x :: y :: t, rfl⟩
    refine ⟨[120, 94], rfl, hp, ?_⟩
    have hnone : readCompressed u utf8 (d + 1) ixRuntimeUpdate [120, 94] = none := by
      unfold readCompressed
      rw [if_neg (by simp), hz.cut _ _ hp (by simp)]
      · rfl
      · rw [ht]
        simp
    unfold loadRuntime
    rw [hnone]
    show Wire.loop utf8 (Wire.keyOf d) (read table utf8 d) (table.fields ixRuntimeUpdate) 2 ⟨[], []⟩ [120, 94] = _
    rw [runtime_fields]
    rfl

/-! ### The kill file -/

theorem be_inj (k : Nat) : ∀ {a b : Nat}, a < 256 ^ k → b < 256 ^ k → be k a = be k b → a = b := by
  induction k with
  | zero => intro a b ha hb _; simp at ha hb; omega
  | succ k ih =>
    intro a b ha hb h
    simp only [be] at h
    obtain ⟨h1, h2⟩ := List.append_inj' h rfl
    have h2 : a % 256 = b % 256 := by simpa using h2
    rw [Nat.pow_succ] at ha hb
    have := ih (Nat.div_lt_of_lt_mul (by omega)) (Nat.div_lt_of_lt_mul (by omega)) h1
    omega

theorem be_ne (n : Nat) : be 8 n ≠ [] := by simp [be]

theorem numField_mem {M : Type} {i bits : Nat} {n : Int} {x : Nat × V M} (h : x ∈ numField i bits n) : n ≠ 0 ∧ x = (i, .num (n % 2 ^ bits).toNat) := by
  unfold numField at h
  split at h
  · cases h
  · rename_i hn
    exact ⟨hn, by simpa using h⟩

theorem pow64 : (2 : Int) ^ 64 = 18446744073709551616 := by decide
theorem pow32 : (2 : Int) ^ 32 = 4294967296 := by decide

/-- A time has 64 bits of seconds and a number of nanoseconds. -/
theorem time_bounds {t : Int} (ht : Time.Valid t) : Time.minSec ≤ (Time.timeToProto t).seconds ∧ (Time.timeToProto t).seconds ≤ Time.maxSec ∧
    0 ≤ (Time.timeToProto t).nanos ∧ (Time.timeToProto t).nanos < 1000000000 := by
  obtain ⟨h1, h2, h3⟩ := Time.C47_time_roundtrip t ht
  by_cases h : Time.minSec ≤ (Time.timeToProto t).seconds ∧ (Time.timeToProto t).seconds ≤ Time.maxSec
  · exact ⟨h.1, h.2, h2, h3⟩
  · unfold Time.protoToTime Time.fromUnix at h1
    rw [if_neg h] at h1
    cases h1

theorem timestamp_known {M : Type} {t : Int} {x : Nat × V M} (hx : x ∈ (timestampMsg (M := M) t).known) :
    (x = (0, .num ((Time.timeToProto t).seconds % 2 ^ 64).toNat) ∧ (Time.timeToProto t).seconds ≠ 0) ∨
    (x = (1, .num ((Time.timeToProto t).nanos % 2 ^ 32).toNat) ∧ (Time.timeToProto t).nanos ≠ 0) := by
  rcases List.mem_append.1 hx with h | h
  · obtain ⟨h1, h2⟩ := numField_mem h
    exact Or.inl ⟨h2, h1⟩
  · obtain ⟨h1, h2⟩ := numField_mem h
    exact Or.inr ⟨h2, h1⟩

theorem timestamp_schema : schema.fields 183 = Wire.s183 := by decide +kernel
theorem kill_schema : schema.fields ixClientKillFile = Wire.s6 := by decide +kernel

theorem timestamp_fits (k : Nat) (utf8 : Bytes → Bool) {t : Int} (ht : Time.Valid t) : Fits schema utf8 (k + 1) 183 (timestampMsg (M := Msg k) t) := by
  show FitsF _ _ _ (schema.fields 183) _
  rw [timestamp_schema]
  obtain ⟨hs0, hs1, hn0, hn1⟩ := time_bounds ht
  unfold Time.minSec at hs0
  unfold Time.maxSec at hs1
  refine ⟨?_, ?_, nofun, ?_⟩
  · intro x hx
    rcases timestamp_known hx with ⟨rfl, h⟩ | ⟨rfl, h⟩
    · refine ⟨_, rfl, by simp, ?_, fun _ => ⟨?_, by simp, by simp⟩⟩
      · simp only [Wire.inRange]; rw [pow64]; omega
      · rw [pow64]; omega
    · refine ⟨_, rfl, by simp, ?_, fun _ => ⟨?_, by simp, by simp⟩⟩
      · simp only [Wire.inRange]; rw [pow32]; omega
      · rw [pow32]; omega
  · have hone : ∀ (i bits : Nat) (n : Int), (numField (M := Msg k) i bits n).Pairwise (Before (Wire.HasKey k) Wire.s183) := by
      intro i bits n
      unfold numField
      split <;> simp
    refine List.pairwise_append.2 ⟨hone _ _ _, hone _ _ _, ?_⟩
    intro x hx y hy
    obtain ⟨_, rfl⟩ := numField_mem hx
    obtain ⟨_, rfl⟩ := numField_mem hy
    refine Or.inl ⟨Nat.zero_lt_one, ?_⟩
    rintro s s' g h _ hg
    simp [Wire.s183] at h
    subst h
    cases hg
  · intro x hx s hs hm
    rcases timestamp_known hx with ⟨rfl, h⟩ | ⟨rfl, h⟩ <;> · cases hs; cases hm

theorem kill_known {hash : Nat} {t : Int} {x : Nat × V (Msg 1)} (hx : x ∈ (killMsg hash t).known) : x = (0, .bytes (be 8 hash)) ∨ x = (1, .msg (timestampMsg t)) := by
  rcases List.mem_cons.1 hx with h | h
  · exact Or.inl h
  · exact Or.inr (List.mem_singleton.1 h)

theorem kill_fits (utf8 : Bytes → Bool) (hash : Nat) {t : Int} (ht : Time.Valid t) : Fits schema utf8 2 ixClientKillFile (killMsg hash t) := by
  show FitsF _ _ _ (schema.fields ixClientKillFile) _
  rw [kill_schema]
  refine ⟨?_, ?_, nofun, ?_⟩
  · intro x hx
    rcases kill_known hx with rfl | rfl
    · exact ⟨_, rfl, by simp, Or.inl rfl, fun _ => be_ne hash⟩
    · exact ⟨_, rfl, by simp, 183, rfl, timestamp_fits 0 utf8 ht⟩
  · refine List.Pairwise.cons ?_ (List.Pairwise.cons nofun List.Pairwise.nil)
    intro y hy
    rw [List.mem_singleton.1 hy]
    refine Or.inl ⟨Nat.zero_lt_one, ?_⟩
    rintro s s' g h _ hg
    cases h
    cases hg
  · intro x hx s hs hm
    rcases kill_known hx with rfl | rfl <;> · cases hs; cases hm

theorem numOf_field {M : Type} {i bits : Nat} {n : Int} (rest : List (Nat × V M)) (hr : ∀ x ∈ rest, x.1 ≠ i) (h0 : - 2 ^ (bits - 1) ≤ n) (h1 : n < 2 ^ (bits - 1)) (hb : 0 < bits) :
    numOf (M := M) ⟨numField i bits n ++ rest, []⟩ i bits = n ∧ numOf (M := M) ⟨rest ++ numField i bits n, []⟩ i bits = n := by
  have hp : (2 : Int) ^ bits = 2 * 2 ^ (bits - 1) := by
    obtain ⟨k, rfl⟩ : ∃ k, bits = k + 1 := ⟨bits - 1, by omega⟩
    rw [Int.pow_succ, Nat.add_sub_cancel]
    omega
  have hn : rest.find? (fun x => decide (x.1 = i)) = none := List.find?_eq_none.2 fun x hx => by simpa using hr x hx
  have hc : ((2 ^ (bits - 1) : Nat) : Int) = 2 ^ (bits - 1) := by simp
  have key : (if (n % 2 ^ bits).toNat < 2 ^ (bits - 1) then (((n % 2 ^ bits).toNat : Nat) : Int) else (((n % 2 ^ bits).toNat : Nat) : Int) - 2 ^ bits) = n := by
    rw [hp]
    by_cases hneg : n < 0
    · have e : n % (2 * 2 ^ (bits - 1)) = n + 2 * 2 ^ (bits - 1) := by
        rw [← Int.add_emod_right]
        exact Int.emod_eq_of_lt (by omega) (by omega)
      rw [e, if_neg (by omega)]
      omega
    · have e : n % (2 * 2 ^ (bits - 1)) = n := Int.emod_eq_of_lt (by omega) (by omega)
      rw [e, if_pos (by omega)]
      omega
  unfold numOf numField
  by_cases hz : n = 0
  · simp [hz, hn]
  · constructor
    · rw [if_neg hz]
      simp only [List.cons_append, List.find?_cons, decide_true]
      exact key
    · rw [if_neg hz]
      simp only [List.find?_append, hn, Option.none_or, List.find?_cons, decide_true]
      exact key

/-- The time that is read back. -/
theorem time_back {M : Type} {t : Int} (ht : Time.Valid t) : timeOf (timestampMsg (M := M) t) = some t := by
  obtain ⟨hs0, hs1, hn0, hn1⟩ := time_bounds ht
  unfold Time.minSec at hs0
  unfold Time.maxSec at hs1
  have e1 : numOf (timestampMsg (M := M) t) 0 64 = (Time.timeToProto t).seconds :=
    (numOf_field _ (fun x hx => by obtain ⟨_, rfl⟩ := numField_mem hx; exact Nat.one_ne_zero) (by omega) (by omega) (by decide)).1
  have e2 : numOf (timestampMsg (M := M) t) 1 32 = (Time.timeToProto t).nanos :=
    (numOf_field _ (fun x hx => by obtain ⟨_, rfl⟩ := numField_mem hx; exact Nat.zero_ne_one) (by omega) (by omega) (by decide)).2
  unfold timeOf
  rw [e1, e2]
  exact (Time.C47_time_roundtrip t ht).1

theorem till_back (hash : Nat) {t : Int} (ht : Time.Valid t) : tillOf (killMsg hash t) = some t := time_back ht

/-- **C104.** A process that finds the kill file of an earlier one: if it was written to the end, the client is killed exactly if the time in
it is not over and it has the api key of the earlier one, and otherwise the file is removed; if it was cut anywhere, it decides as if there
were none.  It does not panic. -/
theorem C104_kill {z : Bytes → Bytes} {u : Bytes → Option Bytes} (hz : Zlib z u) (utf8 : Bytes → Bool) (hash hash' : Nat) (h : hash < 2 ^ 64) (h' : hash' < 2 ^ 64) (till : Int)
    (ht : Time.Valid till) (now generic : Int) (p : Bytes) (hp : p <+: writeKill z hash till) :
    (p = writeKill z hash till → ((till > now ∧ hash' = hash → startKill u utf8 hash' now generic (some p) = some (true, false)) ∧
      (¬ (till > now ∧ hash' = hash) → startKill u utf8 hash' now generic (some p) = some (false, true)))) ∧
    (p ≠ writeKill z hash till → startKill u utf8 hash' now generic (some p) = startKill u utf8 hash' now generic none ∧
      startKill u utf8 hash' now generic none = some (decide (generic ≠ 0), false)) := by
  obtain ⟨h1, h2⟩ := C104_compressed hz utf8 2 ixClientKillFile (killMsg hash till) (kill_fits utf8 hash ht) p hp
  have hb : be 8 hash' = be 8 hash ↔ hash' = hash := ⟨be_inj 8 (by omega) (by omega), fun e => by rw [e]⟩
  constructor
  · rintro rfl
    have : startKill u utf8 hash' now generic (some (writeKill z hash till)) = if till > now ∧ hash' = hash then some (true, false) else some (false, true) := by
      simp only [startKill, Option.bind_some]
      rw [show readCompressed u utf8 2 ixClientKillFile (writeKill z hash till) = some (killMsg hash till) from h1]
      show (match tillOf (killMsg hash till) with
        | none => none
        | some till' => if till' > now ∧ be 8 hash' = be 8 hash then some (true, false) else some (false, true)) = _
      rw [till_back hash ht]
      simp only [hb]
    rw [this]
    exact ⟨fun hh => if_pos hh, fun hh => if_neg hh⟩
  · intro hne
    refine ⟨?_, rfl⟩
    simp only [startKill, Option.bind_some, Option.bind_none]
    rw [h2 hne]

/-! ### Cases -/

/-- A compression that is none: the header of zlib, the length, the bytes. -/
def exZ (b : Bytes) : Bytes := 120 :: 94 :: (varint b.length ++ b)

def exU : Bytes → Option Bytes
  | 120 :: 94 :: r =>
    match readField r with
    | some (b, []) => some b
    | _ => none
  | _ => none

theorem exZlib : Zlib exZ exU where
  whole b := by
    have := Wire.readField_delimited (Wire.delimited_write b) []
    rw [List.append_nil] at this
    simp only [exZ, exU, this]
  nonempty b := nofun
  cut b p hp h0 hne := by
    obtain ⟨q, hq⟩ := hp
    unfold exZ at hq hne
    match p, hq with
    | [x], _ => unfold exU; split <;> simp_all
    | x :: y :: r, hq =>
      simp only [List.cons_append, List.cons.injEq] at hq
      obtain ⟨rfl, rfl, hq⟩ := hq
      simp only [exU]
      split
      · rename_i b' hb
        exfalso
        have h1 := readField_ext q hb
        have h2 := Wire.readField_delimited (Wire.delimited_write b) []
        rw [List.append_nil, ← hq, h1] at h2
        simp only [List.nil_append, Option.some.injEq, Prod.mk.injEq] at h2
        rw [h2.2, List.append_nil] at hq
        exact hne (by rw [hq])
      · rfl

/-- A configuration of one field, its version "v1", and a field 9 of a later version. -/
def exUpd : MsgF (Msg 2) := ⟨[(0, .bytes [118, 49]), (1, .msg (⟨[], [(9, .varint 7)]⟩ : MsgF (Msg 1)))], [(9, .varint 300)]⟩

theorem exUpd_fits : Wire.Fits schema (fun _ => true) 3 ixConfigurationUpdate exUpd := by
  show FitsF _ _ _ (schema.fields ixConfigurationUpdate) _
  rw [update_fields]
  have e : schema.fields 35 = Wire.s35 := by decide +kernel
  refine ⟨?_, ?_, ?_, ?_⟩
  · have : Fits schema (fun _ => true) 2 35 (⟨[], [(9, .varint 7)]⟩ : MsgF (Msg 1)) := by
      show FitsF _ _ _ (schema.fields 35) _
      rw [e]
      refine ⟨nofun, List.Pairwise.nil, ?_, nofun⟩
      simp [Wire.s35, Wire.FitsU, Wire.rawType, Wire.tagOf, Wire.wireType]
    simp [exUpd, Wire.s34, Wire.FitsV, this]
  · simp [exUpd, Wire.s34, Before]
    rintro _ _ g rfl rfl h
    simp at h
  · simp [exUpd, Wire.s34, Wire.FitsU, Wire.rawType, Wire.tagOf, Wire.wireType]
  · simp [exUpd, Wire.s34]

example : write table 3 ixConfigurationUpdate exUpd = [10, 2, 118, 49, 18, 2, 72, 7, 72, 172, 2] := by decide +kernel

/-- The write ends after six bytes: the file is refused at the next start. -/
example : (Conf.mk none none).run (fun _ => true) [.server exUpd .ok (.cut 6), .start true true false .ok .ok] = ⟨none, none⟩ := by decide +kernel

/-- After eight bytes the configuration is there, the field of the later version is lost. -/
example : ((Conf.mk none none).run (fun _ => true) [.server exUpd .ok (.cut 8), .start true true false .ok .ok]) = ⟨some [10, 2, 118, 49, 18, 2, 72, 7], some [118, 49]⟩ := by
  decide +kernel

/-- After four the update has a version and no configuration, which is not applied. -/
example : ((Conf.mk none none).run (fun _ => true) [.server exUpd .ok (.cut 4), .start true true false .ok .ok]) = ⟨none, none⟩ := by decide +kernel

/-- The file is removed, and the process dies of the configuration: the next start finds none.  Then a write that fails: the next start
has the one before. -/
example : (Conf.mk none none).run (fun _ => true) [.server exUpd .ok .ok, .start true true true .ok .ok, .start true true false .ok .ok] = ⟨none, none⟩ ∧
    (((Conf.mk none none).run (fun _ => true) [.server exUpd .ok .ok, .server exUpd .ok .fail]).file =
      some [10, 2, 118, 49, 18, 2, 72, 7, 72, 172, 2]) := by decide +kernel

/-- Half a second past one second before the epoch. -/
example : startKill exU (fun _ => true) 258 (-700000000) 0 (some (writeKill exZ 258 (-500000000))) = some (true, false) ∧
    startKill exU (fun _ => true) 258 (-400000000) 0 (some (writeKill exZ 258 (-500000000))) = some (false, true) ∧
    startKill exU (fun _ => true) 259 (-700000000) 0 (some (writeKill exZ 258 (-500000000))) = some (false, true) ∧
    startKill exU (fun _ => true) 258 (-700000000) 0 (some ((writeKill exZ 258 (-500000000)).take 13)) = some (false, false) := by decide +kernel

end Verif.Files
