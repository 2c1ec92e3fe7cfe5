import Verif.App.Model

/-
C44 (app updates) and C45 (screenshots).
-/
namespace Verif.App

/-! ### C44 -/

/-- The version on record, told from the history alone: the last one reported, or the first one seen at
all if none was reported yet. -/
def recorded : List VOp → Option Version
  | [] => none
  | ops@(op :: _) =>
    match ops.reverse.findSome? (fun | .report v => some v | .check _ => none) with
    | some v => some v
    | none => some op.version

theorem runV_append (a b : List VOp) : ∀ s, runV s (a ++ b) = runV (runV s a) b := by
  induction a with
  | nil => intro s; rfl
  | cons x a ih => intro s; exact ih _

theorem stepV_some (s : Version) (op : VOp) :
    stepV (some s) op = match op with | .report v => some v | .check _ => some s := by
  cases op with
  | check v => rfl
  | report v =>
    simp only [stepV, setVersion]
    split
    · rename_i h; subst h; rfl
    · rfl

theorem runV_some (ops : List VOp) : ∀ s : Version,
    runV (some s) ops = some ((ops.reverse.findSome? (fun | .report v => some v | .check _ => none)).getD s) := by
  induction ops with
  | nil => intro s; rfl
  | cons op ops ih =>
    intro s
    simp only [runV, stepV_some]
    cases op with
    | check v =>
      simp only [ih, List.reverse_cons, List.findSome?_append]
      cases ops.reverse.findSome? _ <;> rfl
    | report v =>
      simp only [ih, List.reverse_cons, List.findSome?_append]
      cases ops.reverse.findSome? _ <;> rfl

theorem runV_recorded (ops : List VOp) : runV none ops = recorded ops := by
  cases ops with
  | nil => rfl
  | cons op ops =>
    have h : runV none (op :: ops) = runV (some op.version) ops := by cases op <;> rfl
    rw [h, runV_some]
    simp only [recorded, List.reverse_cons, List.findSome?_append]
    cases hh : ops.reverse.findSome? _ with
    | some v => rfl
    | none => cases op <;> rfl

theorem reports_append (a b : List VOp) : ∀ s, reports s (a ++ b) = reports s a ++ reports (runV s a) b := by
  induction a with
  | nil => intro s; rfl
  | cons x a ih =>
    intro s
    cases x with
    | check v => simp only [List.cons_append, reports, runV, ih]
    | report v => simp only [List.cons_append, reports, runV, ih, List.append_assoc]

/-- C44: after any history of checks and reports over any number of app starts, reporting version `v`
logs an update exactly when another version is on record, and then with that version as the previous one;
a check says so beforehand. -/
theorem C44_report (ops : List VOp) (v : Version) :
    reports none (ops ++ [.report v]) = reports none ops ++
      (match recorded ops with
        | some p => if v = p then [] else [(p, v)]
        | none => []) ∧
    (hasChanged (runV none ops) v).2 = (match recorded ops with | some p => decide (v ≠ p) | none => false) := by
  rw [reports_append, runV_recorded]
  constructor
  · cases hr : recorded ops with
    | none => simp [reports, setVersion]
    | some p =>
      simp only [reports, setVersion]
      split <;> simp
  · cases hr : recorded ops <;> rfl

/-- C44: reporting the same version again, with any number of checks in between, yields nothing. -/
theorem C44_once (ops : List VOp) (v : Version) (checks : List Version) :
    reports none (ops ++ [.report v] ++ checks.map VOp.check ++ [.report v]) =
      reports none (ops ++ [.report v]) := by
  have hrec : recorded (ops ++ [.report v] ++ checks.map VOp.check) = some v := by
    rw [← runV_recorded, runV_append, runV_append]
    have h1 : runV (runV none ops) [.report v] = some v := by
      simp only [runV]
      cases runV none ops with
      | none => rfl
      | some s => exact stepV_some s _
    rw [h1]
    induction checks with
    | nil => rfl
    | cons c cs ih => exact ih
  rw [(C44_report _ v).1, hrec]
  have hchk : ∀ (cs : List Version) (s : Option Version), reports s (cs.map VOp.check) = [] := by
    intro cs
    induction cs with
    | nil => intro s; rfl
    | cons c cs ih => intro s; exact ih _
  simp only [if_true, List.append_nil]
  rw [reports_append, hchk, List.append_nil]

example :
    let v1 : Version := ⟨"1.0", .code 1⟩
    let v2 : Version := ⟨"1.1", .code 2⟩
    reports none [.check v1, .report v1, .check v2, .report v2, .report v2, .report v1] = [(v1, v2), (v2, v1)] := by
  decide

/-! ### C45 -/

/-- Every screenshot log answers an outstanding request. -/
def Solicited (s : Shot) : List ShotEv → Prop
  | [] => True
  | e :: es => (e = .shotLog → 0 < s.outstanding) ∧ Solicited (s.step e).1 es

/-- Exactly one of: a screenshot outstanding, the token in the channel, the recorder ready. -/
def Shot.Inv (s : Shot) : Prop :=
  s.outstanding + s.token.toNat + s.ready.toNat = 1

theorem Shot.Inv.step {s : Shot} (h : s.Inv) (e : ShotEv) (he : e = .shotLog → 0 < s.outstanding) :
    (s.step e).1.Inv := by
  obtain ⟨en, rd, rq, tk, out, c1, c2, c3, c4⟩ := s
  unfold Shot.Inv at *
  simp only at h he
  cases e with
  | ask => cases rq <;> simpa [Shot.step] using h
  | recvAsk =>
    cases rq <;> cases en <;> cases rd <;> cases tk <;> simp [Shot.step] at h ⊢ <;> omega
  | shotLog =>
    have := he rfl
    cases tk <;> cases rd <;> simp [Shot.step] at h ⊢ <;> omega
  | recvToken => cases tk <;> cases rd <;> simp [Shot.step] at h ⊢ <;> omega
  | setEnabled b => simpa [Shot.step] using h

theorem Shot.run_inv (es : List ShotEv) : ∀ {s : Shot}, s.Inv → Solicited s es → (s.run es).Inv := by
  induction es with
  | nil => intro s h _; exact h
  | cons e es ih => intro s h hs; exact ih (h.step e hs.1) hs.2

/-- C45 (part): in every history in which screenshot logs only come as answers, a screenshot is requested
from the platform only if none is outstanding and screenshots are enabled; at most one is ever
outstanding.  Unsolicited screenshot logs are excluded by the hypothesis. -/
theorem C45_one_at_a_time_partial (en : Bool) (es : List ShotEv) (e : ShotEv)
    (hs : Solicited (Shot.init en) es) :
    let s := (Shot.init en).run es
    s.outstanding ≤ 1 ∧ ((s.step e).2 = true → s.outstanding = 0 ∧ s.enabled = true ∧ e = .recvAsk) := by
  intro s
  have hinv : s.Inv := Shot.run_inv es (by simp [Shot.Inv, Shot.init]) hs
  refine ⟨by unfold Shot.Inv at hinv; omega, ?_⟩
  intro h
  generalize s = s at *
  obtain ⟨sen, rd, rq, tk, out, c1, c2, c3, c4⟩ := s
  unfold Shot.Inv at hinv
  cases e with
  | ask => cases rq <;> simp [Shot.step] at h
  | recvAsk =>
    cases rq <;> cases sen <;> cases rd <;> simp [Shot.step] at h hinv ⊢
    omega
  | shotLog => simp [Shot.step] at h
  | recvToken => cases tk <;> simp [Shot.step] at h
  | setEnabled b => simp [Shot.step] at h

/-- C45: in such histories the recorder does not get stuck: a waiting request is passed on if screenshots are
enabled, none is outstanding and the recorder has taken note of the last one. -/
theorem C45_passed_on (en : Bool) (es : List ShotEv) (hs : Solicited (Shot.init en) es) :
    let s := (Shot.init en).run es
    s.request = true → s.enabled = true → s.outstanding = 0 →
      (s.token = false → (s.step .recvAsk).2 = true) ∧
      (s.token = true → ((s.step .recvToken).1.step .recvAsk).2 = true) := by
  intro s hr he ho
  have hinv : s.Inv := Shot.run_inv es (by simp [Shot.Inv, Shot.init]) hs
  generalize s = s at *
  obtain ⟨sen, rd, rq, tk, out, c1, c2, c3, c4⟩ := s
  simp only at hr he ho
  subst hr he ho
  unfold Shot.Inv at hinv
  cases tk <;> cases rd <;> simp [Shot.step] at hinv ⊢

/-- How many screenshots were asked for. -/
def asks (es : List ShotEv) : Nat := es.count .ask

/-- C45: every request is accounted for — passed on, or dropped and counted with its reason, or waiting
in the channel, where there is room for one only. -/
theorem C45_accounting (en : Bool) (es : List ShotEv) :
    let s := (Shot.init en).run es
    asks es = s.captured + s.full + s.disabled + s.notReady + s.request.toNat ∧ s.request.toNat ≤ 1 := by
  have key : ∀ (es : List ShotEv) (s : Shot),
      (s.run es).captured + (s.run es).full + (s.run es).disabled + (s.run es).notReady + (s.run es).request.toNat =
        asks es + s.captured + s.full + s.disabled + s.notReady + s.request.toNat := by
    intro es
    induction es with
    | nil => intro s; simp [Shot.run, asks]
    | cons e es ih =>
      intro s
      have := ih (s.step e).1
      simp only [Shot.run, this]
      obtain ⟨sen, rd, rq, tk, out, c1, c2, c3, c4⟩ := s
      cases e with
      | ask => cases rq <;> simp [Shot.step, asks] <;> omega
      | recvAsk => cases rq <;> cases sen <;> cases rd <;> simp [Shot.step, asks] <;> omega
      | shotLog => simp [Shot.step, asks]
      | recvToken => cases tk <;> simp [Shot.step, asks]
      | setEnabled b => simp [Shot.step, asks]
  intro s
  have := key es (Shot.init en)
  refine ⟨?_, by cases s.request <;> decide⟩
  simp only [Shot.init, Bool.toNat_false] at this
  simp only [s, Shot.init]
  omega

/-- C45, violation without that hypothesis: a screenshot log that answers nothing makes the recorder
request a second screenshot while the first is outstanding. -/
theorem C45_unsolicited_violated :
    let s := (Shot.init true).run [.ask, .shotLog, .recvAsk, .recvToken, .ask]
    s.outstanding = 1 ∧ (s.step .recvAsk).2 = true := by decide

example :
    let es : List ShotEv := [.ask, .recvAsk, .ask, .recvAsk, .shotLog, .recvToken, .ask, .ask, .recvAsk]
    Solicited (Shot.init true) es ∧ ((Shot.init true).run es).captured = 2 ∧ ((Shot.init true).run es).notReady = 1 ∧
    ((Shot.init true).run es).full = 1 := by
  simp only [Solicited]; decide

end Verif.App
