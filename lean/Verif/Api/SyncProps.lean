import Verif.Api.Sync
import Verif.Proto.HandshakeProps

/-! C100: the server is told which configurations are in use. -/
namespace Verif.Sync

open Verif.Startup (Wr StartEnv RtDisk Rt RtEv Upd Conf Outcome Source CfgObs CfgEv)
open Verif.Api (Api Resp Phase Decision)
open Verif.Handshake

variable {Cfg : Type}

/-! ### What an observer derives from the observations alone -/

/-- The logger configuration in use: the last one applied with success in this process. -/
def confUse : List (Obs Cfg) → Option (Upd Cfg) :=
  List.foldl (fun v o => match o with
    | .started _ _ _ => none
    | .attempt _ u .ok => some u
    | _ => v) none

/-- The runtime in use. -/
def rtUse : List (Obs Cfg) → Option RtUpd :=
  List.foldl (fun v o => match o with
    | .started _ _ _ => none
    | .runtime u => some u
    | _ => v) none

/-- Why the last stream of this process ended, if no stream was opened since. -/
def lastReason : List (Obs Cfg) → Option Bytes :=
  List.foldl (fun v o => match o with
    | .started _ _ _ => none
    | .hello _ => none
    | .closed r => some r
    | _ => v) none

/-- The platform of this process. -/
def platform : List (Obs Cfg) → Option (List (Bytes × Bytes) × Platform × String) :=
  List.foldl (fun v o => match o with
    | .started i p k => some (i, p, k)
    | _ => v) none

/-- The acknowledgements owed for the updates taken up in this process: a configuration update is refused unless it was applied. -/
def owed : List (Obs Cfg) → List Ack :=
  List.foldl (fun l o => match o with
    | .started _ _ _ => []
    | .got (some (.configurationUpdate u)) => l ++ [.config u.nonce (some u.nonce)]
    | .got (some (.runtimeUpdate u)) => l ++ [.runtime u.nonce]
    | .attempt .server u .ok => l.dropLast ++ [.config u.nonce none]
    | _ => l) []

/-- The acknowledgements sent by this process. -/
def acked : List (Obs Cfg) → List Ack :=
  List.foldl (fun l o => match o with
    | .started _ _ _ => []
    | .ack a => l ++ [a]
    | _ => l) []

/-- A statement about every observation and what was observed before it. -/
def Each (Q : List (Obs Cfg) → Obs Cfg → Prop) : List (Obs Cfg) → List (Obs Cfg) → Prop
  | _, [] => True
  | pre, x :: l => Q pre x ∧ Each Q (pre ++ [x]) l

theorem Each_append (Q : List (Obs Cfg) → Obs Cfg → Prop) (l m : List (Obs Cfg)) : ∀ pre,
    Each Q pre (l ++ m) ↔ Each Q pre l ∧ Each Q (pre ++ l) m := by
  induction l with
  | nil => intro pre; simp [Each]
  | cons x l ih => intro pre; simp [Each, ih, and_assoc]

theorem Each_split (Q : List (Obs Cfg) → Obs Cfg → Prop) (l : List (Obs Cfg)) (h : Each Q [] l) (a b : List (Obs Cfg)) (x : Obs Cfg)
    (hl : l = a ++ x :: b) : Q a x := by
  subst hl
  exact ((Each_append Q a (x :: b) []).1 h).2.1

theorem owed_append (a b : List (Obs Cfg)) : owed (a ++ b) = b.foldl (fun l o => match o with
    | .started _ _ _ => []
    | .got (some (.configurationUpdate u)) => l ++ [.config u.nonce (some u.nonce)]
    | .got (some (.runtimeUpdate u)) => l ++ [.runtime u.nonce]
    | .attempt .server u .ok => l.dropLast ++ [.config u.nonce none]
    | _ => l) (owed a) := List.foldl_append

theorem acked_append (a b : List (Obs Cfg)) : acked (a ++ b) = b.foldl (fun l o => match o with
    | .started _ _ _ => []
    | .ack a => l ++ [a]
    | _ => l) (acked a) := List.foldl_append

theorem confUse_append (a b : List (Obs Cfg)) : confUse (a ++ b) = b.foldl (fun v o => match o with
    | .started _ _ _ => none
    | .attempt _ u .ok => some u
    | _ => v) (confUse a) := List.foldl_append

theorem rtUse_append (a b : List (Obs Cfg)) : rtUse (a ++ b) = b.foldl (fun v o => match o with
    | .started _ _ _ => none
    | .runtime u => some u
    | _ => v) (rtUse a) := List.foldl_append

theorem lastReason_append (a b : List (Obs Cfg)) : lastReason (a ++ b) = b.foldl (fun v o => match o with
    | .started _ _ _ => none
    | .hello _ => none
    | .closed r => some r
    | _ => v) (lastReason a) := List.foldl_append

theorem platform_append (a b : List (Obs Cfg)) : platform (a ++ b) = b.foldl (fun v o => match o with
    | .started i p k => some (i, p, k)
    | _ => v) (platform a) := List.foldl_append

/-! ### What every observation says -/

/-- The metadata of a handshake, key by key. -/
def Shows (m inner : List (Bytes × Bytes)) (p : Platform) (sdk : String) : Prop :=
  ∀ k, hget m k =
    if k = enc "sdk_version" then some (enc sdk)
    else if k = enc "kind" then some (enc (match p with | .android => "mobile" | .ios => "mobile" | .pulse => "pulse" | .other _ x => x))
    else if k = enc "os" then some (enc (match p with | .android => "android" | .ios => "ios" | .pulse => "pulse" | .other x _ => x))
    else if k = enc "config_version" then some (enc "26")
    else hget inner k

/-- What is asked of an observation, given those before it. -/
def Good (pre : List (Obs Cfg)) : Obs Cfg → Prop
  | .hello b => ∃ h inner p sdk, Hs.parse b = some h ∧ platform pre = some (inner, p, sdk) ∧ Shows h.metadata inner p sdk ∧
      h.confNonce = ((confUse pre).map fun u => enc u.nonce).getD [] ∧
      h.rtNonce = ((rtUse pre).map fun u => enc u.nonce).getD [] ∧
      h.reason = (lastReason pre).getD []
  | .ack (.config v none) => (confUse pre).map (·.nonce) = some v
  | .ack (.config v (some w)) => w = v ∧ ∃ l u, u.nonce = v ∧
      (pre = l ++ [.got (some (.configurationUpdate u))] ∧ u.cfg = none ∨
        pre = l ++ [.got (some (.configurationUpdate u)), .attempt .server u .err])
  | .ack (.runtime v) => (rtUse pre).map (·.nonce) = some v
  | _ => True

structure Inv (s : Sys Cfg) (o : List (Obs Cfg)) : Prop where
  conf : s.conf.version = (confUse o).map (·.nonce)
  snap : s.snap = rtUse o
  reason : s.up = true → s.api.phase ≠ .ended → s.reason = lastReason o
  plat : s.up = true → ∃ inner p sdk, platform o = some (inner, p, sdk) ∧ s.metadata = collect inner p sdk ∧
    inner.Pairwise fun x y => x.1 ≠ y.1
  acks : ∃ t, owed o = acked o ++ t ∧ t.length ≤ 1 ∧ (s.up = true → s.api.phase ≠ .ended → t = [])
  good : Each Good [] o

/-- The keys of a hash map are distinct. -/
def Proper (es : List (Ev Cfg)) : Prop :=
  ∀ e ∈ es, ∀ inner p sdk en a b d out w k, e = .start inner p sdk en a b d out w k → inner.Pairwise fun x y => x.1 ≠ y.1

theorem Inv.down {s : Sys Cfg} {o : List (Obs Cfg)} (h : Inv s o) : Inv { s with up := false } o :=
  ⟨h.conf, h.snap, by simp, by simp, by
    obtain ⟨t, h1, h2, _⟩ := h.acks
    exact ⟨t, h1, h2, by simp⟩, h.good⟩

/-- A change of the stream only. -/
theorem Inv.api {s : Sys Cfg} {o : List (Obs Cfg)} (h : Inv s o) (a : Api) (n m k : Nat)
    (hp : a.phase ≠ .ended → s.api.phase ≠ .ended) :
    Inv { s with api := a, streamTotal := n, connectFailure := m, errorShutdown := k } o :=
  ⟨h.conf, h.snap, fun hu ha => h.reason hu (hp ha), h.plat, by
    obtain ⟨t, h1, h2, h3⟩ := h.acks
    exact ⟨t, h1, h2, fun hu ha => h3 hu (hp ha)⟩, h.good⟩

theorem fail_phase (a : Api) : a.fail.phase = .ended := rfl

theorem api_respond_phase (a b : Api) (r : Resp) (h : a.respond r = some b) : b.phase = a.phase := by
  cases r <;> simp only [Api.respond] at h
  all_goals (first
    | (cases h; done)
    | (cases h; rfl)
    | (split at h <;> first | (cases h; done) | (cases h; rfl)))

/-- Observations that concern nothing of the invariant but the fact that a response was taken. -/
theorem Inv.gotPlain {s : Sys Cfg} {o : List (Obs Cfg)} (h : Inv s o) (r : Response Cfg)
    (h1 : configOf r = none) (h2 : runtimeOf r = none) : Inv s (o ++ [.got r]) := by
  have hr : ∀ l : List Ack, (match (Obs.got r : Obs Cfg) with
    | .started _ _ _ => []
    | .got (some (.configurationUpdate u)) => l ++ [.config u.nonce (some u.nonce)]
    | .got (some (.runtimeUpdate u)) => l ++ [.runtime u.nonce]
    | .attempt .server u .ok => l.dropLast ++ [.config u.nonce none]
    | _ => l) = l := by
    intro l
    match r, h1, h2 with
    | none, _, _ => rfl
    | some (.handshake _), _, _ => rfl
    | some (.logUpload _ _), _, _ => rfl
    | some (.logUploadIntent _ _), _, _ => rfl
    | some (.statsUpload _ _), _, _ => rfl
    | some .pong, _, _ => rfl
    | some (.errorShutdown _ _), _, _ => rfl
    | some (.flushBuffers _), _, _ => rfl
    | some .opaqueConfigurationUpdate, _, _ => rfl
    | some (.opaqueUpload _ _), _, _ => rfl
    | some (.sankeyDiagramUpload _ _), _, _ => rfl
    | some (.sankeyIntentResponse _ _), _, _ => rfl
  refine ⟨?_, ?_, ?_, ?_, ?_, ?_⟩
  · rw [confUse_append]; exact h.conf
  · rw [rtUse_append]; exact h.snap
  · rw [lastReason_append]; exact h.reason
  · rw [platform_append]; exact h.plat
  · rw [owed_append, acked_append]
    simp only [List.foldl_cons, List.foldl_nil]
    rw [hr]
    exact h.acks
  · rw [Each_append]; exact ⟨h.good, trivial, trivial⟩

theorem handle_inv (s : Sys Cfg) (o : List (Obs Cfg)) (r : Response Cfg) (e : REnv) (h : Inv s o) (hup : s.up = true)
    (hph : s.api.phase ≠ .ended) : Inv (s.handle r e).1 (o ++ (s.handle r e).2) := by
  obtain ⟨t, ho, _, ht⟩ := h.acks
  have ht := ht hup hph
  subst ht
  rw [List.append_nil] at ho
  have hrs := h.reason hup hph
  have hpl := h.plat hup
  have plain : ∀ k : RKind, k ≠ .untyped → demux r = some k → configOf r = none → runtimeOf r = none →
      Inv (s.handle r e).1 (o ++ (s.handle r e).2) := by
    intro k hk hd h1 h2
    have key : ∀ n, Inv (match s.api.respond k.resp with
        | none => ({ s with api := s.api.fail, errorShutdown := n } : Sys Cfg)
        | some a => { s with api := a, errorShutdown := n }) (o ++ [.got r]) := by
      intro n
      cases hresp : s.api.respond k.resp with
      | none => exact (h.gotPlain r h1 h2).api _ _ _ _ (fun hh => absurd rfl hh)
      | some a => exact (h.gotPlain r h1 h2).api _ _ _ _ (by rw [api_respond_phase _ _ _ hresp]; exact id)
    unfold Sys.handle
    rw [hd]
    cases k <;> first | exact absurd rfl hk | skip
    all_goals
      dsimp only
      first
        | (have := key (s.errorShutdown + 1); revert this; cases s.api.respond _ <;> exact id)
        | (have := key s.errorShutdown; revert this; cases s.api.respond _ <;> exact id)
  match r with
  | none => exact h.gotPlain none rfl rfl
  | some (.handshake p) => exact plain _ (by simp) rfl rfl rfl
  | some (.logUpload u x) => exact plain _ (by simp) rfl rfl rfl
  | some (.logUploadIntent u x) => exact plain _ (by simp) rfl rfl rfl
  | some (.statsUpload u x) => exact plain _ (by simp) rfl rfl rfl
  | some .pong => exact plain _ (by simp) rfl rfl rfl
  | some (.errorShutdown a m) => exact plain _ (by simp) rfl rfl rfl
  | some (.flushBuffers u) => exact plain _ (by simp) rfl rfl rfl
  | some (.opaqueUpload u x) => exact plain _ (by simp) rfl rfl rfl
  | some (.sankeyDiagramUpload u x) => exact plain _ (by simp) rfl rfl rfl
  | some (.sankeyIntentResponse u x) => exact plain _ (by simp) rfl rfl rfl
  | some .opaqueConfigurationUpdate =>
    have := (h.gotPlain (some .opaqueConfigurationUpdate) rfl rfl).api s.api s.streamTotal s.connectFailure s.errorShutdown id
    simpa [Sys.handle, demux, Sys.applyRuntime, Sys.applyConfig, runtimeOf, configOf, Api.respond] using this
  | some (.runtimeUpdate u) =>
    cases hd : e.rtDie with
    | true =>
      simp only [Sys.handle, demux, Sys.applyRuntime, Sys.applyConfig, runtimeOf, configOf, Api.respond, hd]
      refine ⟨?_, ?_, ?_, ?_, ?_, ?_⟩
      · rw [confUse_append]; exact h.conf
      · rw [rtUse_append]; rfl
      · intro hh; exact absurd hh (by simp)
      · intro hh; exact absurd hh (by simp)
      · rw [owed_append, acked_append]
        exact ⟨[.runtime u.nonce], by simp [ho], by simp, fun hh => absurd hh (by simp)⟩
      · rw [Each_append]; exact ⟨h.good, trivial, trivial, trivial⟩
    | false =>
      cases hs : e.sendOk with
      | false =>
        simp only [Sys.handle, demux, Sys.applyRuntime, Sys.applyConfig, runtimeOf, configOf, Api.respond, hd, hs]
        refine ⟨?_, ?_, ?_, ?_, ?_, ?_⟩
        · rw [confUse_append]; exact h.conf
        · rw [rtUse_append]; rfl
        · intro _ hh; exact absurd rfl hh
        · rw [platform_append]; exact h.plat
        · rw [owed_append, acked_append]
          exact ⟨[.runtime u.nonce], by simp [ho], by simp, fun _ hh => absurd rfl hh⟩
        · rw [Each_append]; exact ⟨h.good, trivial, trivial, trivial⟩
      | true =>
        simp only [Sys.handle, demux, Sys.applyRuntime, Sys.applyConfig, runtimeOf, configOf, Api.respond, hd, hs]
        refine ⟨?_, ?_, ?_, ?_, ?_, ?_⟩
        · rw [confUse_append]; exact h.conf
        · rw [rtUse_append]; rfl
        · intro _ _; rw [lastReason_append]; exact hrs
        · rw [platform_append]; exact h.plat
        · rw [owed_append, acked_append]
          exact ⟨[], by simp [ho], by simp, fun _ _ => rfl⟩
        · rw [Each_append]
          refine ⟨h.good, trivial, trivial, ?_, trivial⟩
          simp [Good, rtUse_append]
  | some (.configurationUpdate u) =>
    cases hc : u.cfg with
    | none =>
      cases hs : e.sendOk with
      | false =>
        simp only [Sys.handle, demux, Sys.applyRuntime, Sys.applyConfig, runtimeOf, configOf, Api.respond, hc, hs, Conf.process]
        refine ⟨?_, ?_, ?_, ?_, ?_, ?_⟩
        · rw [confUse_append]; exact h.conf
        · rw [rtUse_append]; exact h.snap
        · intro _ hh; exact absurd rfl hh
        · rw [platform_append]; exact h.plat
        · rw [owed_append, acked_append]
          exact ⟨[.config u.nonce (some u.nonce)], by simp [ho], by simp, fun _ hh => absurd rfl hh⟩
        · rw [Each_append]; exact ⟨h.good, trivial, trivial⟩
      | true =>
        simp only [Sys.handle, demux, Sys.applyRuntime, Sys.applyConfig, runtimeOf, configOf, Api.respond, hc, hs, Conf.process]
        refine ⟨?_, ?_, ?_, ?_, ?_, ?_⟩
        · rw [confUse_append]; exact h.conf
        · rw [rtUse_append]; exact h.snap
        · intro _ _; rw [lastReason_append]; exact hrs
        · rw [platform_append]; exact h.plat
        · rw [owed_append, acked_append]
          exact ⟨[], by simp [ho], by simp, fun _ _ => rfl⟩
        · rw [Each_append]
          exact ⟨h.good, trivial, ⟨rfl, o, u, rfl, Or.inl ⟨rfl, hc⟩⟩, trivial⟩
    | some g =>
      cases hout : e.out with
      | die =>
        simp only [Sys.handle, demux, Sys.applyRuntime, Sys.applyConfig, runtimeOf, configOf, Api.respond, hc, hout, Conf.process]
        refine ⟨?_, ?_, ?_, ?_, ?_, ?_⟩
        · rw [confUse_append]; exact h.conf
        · rw [rtUse_append]; exact h.snap
        · intro hh; exact absurd hh (by simp)
        · intro hh; exact absurd hh (by simp)
        · rw [owed_append, acked_append]
          exact ⟨[.config u.nonce (some u.nonce)], by simp [ho, ofCfgObs], by simp, fun hh => absurd hh (by simp)⟩
        · rw [Each_append]; exact ⟨h.good, trivial, trivial, trivial⟩
      | err =>
        cases hs : e.sendOk with
        | false =>
          simp only [Sys.handle, demux, Sys.applyRuntime, Sys.applyConfig, runtimeOf, configOf, Api.respond, hc, hs, hout, Conf.process]
          refine ⟨?_, ?_, ?_, ?_, ?_, ?_⟩
          · rw [confUse_append]; exact h.conf
          · rw [rtUse_append]; exact h.snap
          · intro _ hh; exact absurd rfl hh
          · rw [platform_append]; exact h.plat
          · rw [owed_append, acked_append]
            exact ⟨[.config u.nonce (some u.nonce)], by simp [ho, ofCfgObs], by simp, fun _ hh => absurd rfl hh⟩
          · rw [Each_append]; exact ⟨h.good, trivial, trivial, trivial⟩
        | true =>
          simp only [Sys.handle, demux, Sys.applyRuntime, Sys.applyConfig, runtimeOf, configOf, Api.respond, hc, hs, hout, Conf.process]
          refine ⟨?_, ?_, ?_, ?_, ?_, ?_⟩
          · rw [confUse_append]; exact h.conf
          · rw [rtUse_append]; exact h.snap
          · intro _ _; rw [lastReason_append]; exact hrs
          · rw [platform_append]; exact h.plat
          · rw [owed_append, acked_append]
            exact ⟨[], by simp [ho, ofCfgObs], by simp, fun _ _ => rfl⟩
          · rw [Each_append]
            exact ⟨h.good, trivial, trivial, ⟨rfl, o, u, rfl, Or.inr (by simp)⟩, trivial⟩
      | ok =>
        cases hs : e.sendOk with
        | false =>
          simp only [Sys.handle, demux, Sys.applyRuntime, Sys.applyConfig, runtimeOf, configOf, Api.respond, hc, hs, hout, Conf.process]
          refine ⟨?_, ?_, ?_, ?_, ?_, ?_⟩
          · rw [confUse_append]; rfl
          · rw [rtUse_append]; exact h.snap
          · intro _ hh; exact absurd rfl hh
          · rw [platform_append]; exact h.plat
          · rw [owed_append, acked_append]
            exact ⟨[.config u.nonce none], by simp [ho, ofCfgObs], by simp, fun _ hh => absurd rfl hh⟩
          · rw [Each_append]; exact ⟨h.good, trivial, trivial, trivial⟩
        | true =>
          simp only [Sys.handle, demux, Sys.applyRuntime, Sys.applyConfig, runtimeOf, configOf, Api.respond, hc, hs, hout, Conf.process]
          refine ⟨?_, ?_, ?_, ?_, ?_, ?_⟩
          · rw [confUse_append]; rfl
          · rw [rtUse_append]; exact h.snap
          · intro _ _; rw [lastReason_append]; exact hrs
          · rw [platform_append]; exact h.plat
          · rw [owed_append, acked_append]
            exact ⟨[], by simp [ho, ofCfgObs], by simp, fun _ _ => rfl⟩
          · rw [Each_append]
            refine ⟨h.good, trivial, trivial, ?_, trivial⟩
            simp [Good, confUse_append]

theorem handleAll_inv (l : List (Response Cfg × REnv)) : ∀ (s : Sys Cfg) (o : List (Obs Cfg)), Inv s o → s.up = true →
    s.api.phase ≠ .ended → Inv (s.handleAll l).1 (o ++ (s.handleAll l).2) := by
  induction l with
  | nil => intro s o h _ _; simpa [Sys.handleAll] using h
  | cons x l ih =>
    intro s o h hup hph
    have h1 := handle_inv s o x.1 x.2 h hup hph
    simp only [Sys.handleAll]
    split
    · rename_i hc
      simp only [Bool.and_eq_true, bne_iff_ne, ne_eq] at hc
      have := ih _ _ h1 hc.1 hc.2
      simpa [List.append_assoc] using this
    · exact h1

theorem greet_inv (s : Sys Cfg) (o : List (Obs Cfg)) (first : Response Cfg) (rest : List (Response Cfg × REnv)) (w : Wr)
    (h : Inv s o) (hup : s.up = true) (hph : s.api.phase = .waiting) :
    Inv (s.greet first rest w).1 (o ++ (s.greet first rest w).2) := by
  have hne : s.api.phase ≠ .ended := by rw [hph]; simp
  have other : Inv ({ s with api := s.api.fail } : Sys Cfg) (o ++ [.got first]) := by
    by_cases h1 : configOf first = none
    · by_cases h2 : runtimeOf first = none
      · exact (h.gotPlain first h1 h2).api s.api.fail s.streamTotal s.connectFailure s.errorShutdown (fun hh => absurd rfl hh)
      · match first, h2 with
        | some (.runtimeUpdate u), _ =>
          obtain ⟨t, ho, _, ht⟩ := h.acks
          have ht := ht hup hne
          subst ht
          refine ⟨?_, ?_, ?_, ?_, ?_, ?_⟩
          · rw [confUse_append]; exact h.conf
          · rw [rtUse_append]; exact h.snap
          · intro _ hh; exact absurd rfl hh
          · rw [platform_append]; exact h.plat
          · rw [owed_append, acked_append]
            exact ⟨[.runtime u.nonce], by simp [ho], by simp, fun _ hh => absurd rfl hh⟩
          · rw [Each_append]; exact ⟨h.good, trivial, trivial⟩
    · match first, h1 with
      | some (.configurationUpdate u), _ =>
        obtain ⟨t, ho, _, ht⟩ := h.acks
        have ht := ht hup hne
        subst ht
        refine ⟨?_, ?_, ?_, ?_, ?_, ?_⟩
        · rw [confUse_append]; exact h.conf
        · rw [rtUse_append]; exact h.snap
        · intro _ hh; exact absurd rfl hh
        · rw [platform_append]; exact h.plat
        · rw [owed_append, acked_append]
          exact ⟨[.config u.nonce (some u.nonce)], by simp [ho], by simp, fun _ hh => absurd rfl hh⟩
        · rw [Each_append]; exact ⟨h.good, trivial, trivial⟩
  unfold Sys.greet
  split
  · rename_i p hd
    have h1 : configOf first = none ∧ runtimeOf first = none := by
      match first, hd with
      | some (.handshake _), _ => exact ⟨rfl, rfl⟩
    have h2 := (h.gotPlain first h1.1 h1.2).api { s.api with phase := .active, pingInterval := p, pingArmed := p } s.streamTotal
      s.connectFailure s.errorShutdown (fun _ => hne)
    have h3 := handleAll_inv rest _ _ h2 hup (by simp)
    dsimp only at h3 ⊢
    split
    · rename_i hc
      refine ⟨?_, ?_, ?_, ?_, ?_, ?_⟩
      · have := h3.conf; simp only [confUse_append] at this ⊢; simpa using this
      · have := h3.snap; simp only [rtUse_append] at this ⊢; simpa using this
      · have := h3.reason; simp only [lastReason_append] at this ⊢; simpa using this
      · have := h3.plat; simp only [platform_append] at this ⊢; simpa using this
      · have := h3.acks; simp only [owed_append, acked_append] at this ⊢; simpa using this
      · have := h3.good
        have e : o ++ Obs.got first :: ((({ s with api := { s.api with phase := .active, pingInterval := p, pingArmed := p } } :
            Sys Cfg).handleAll rest).2 ++ [.available]) = (o ++ [.got first] ++ (({ s with api := { s.api with phase := .active, pingInterval := p, pingArmed := p } } :
            Sys Cfg).handleAll rest).2) ++ [.available] := by simp
        rw [e, Each_append]
        exact ⟨this, trivial, trivial⟩
    · simpa using h3
  · rename_i m hd
    have h1 : configOf first = none ∧ runtimeOf first = none := by
      match first, hd with
      | some (.errorShutdown _ _), _ => exact ⟨rfl, rfl⟩
    exact (h.gotPlain first h1.1 h1.2).api _ s.streamTotal s.connectFailure s.errorShutdown (fun _ => hne)
  · rename_i m hd
    have h1 : configOf first = none ∧ runtimeOf first = none := by
      match first, hd with
      | some (.errorShutdown _ _), _ => exact ⟨rfl, rfl⟩
    have h2 := h.gotPlain first h1.1 h1.2
    have e : o ++ [Obs.got first, .closed (enc "error shutdown: " ++ m)] = (o ++ [.got first]) ++ [.closed (enc "error shutdown: " ++ m)] := by simp
    rw [e]
    refine ⟨?_, ?_, ?_, ?_, ?_, ?_⟩
    · rw [confUse_append]; exact h2.conf
    · rw [rtUse_append]; exact h2.snap
    · intro _ _; rw [lastReason_append]; rfl
    · rw [platform_append]; exact h2.plat
    · rw [owed_append, acked_append]
      obtain ⟨t, a, b, c⟩ := h2.acks
      exact ⟨t, a, b, fun _ _ => c hup hne⟩
    · rw [Each_append]; exact ⟨h2.good, trivial, trivial⟩
  · exact other

theorem shows_collect (inner : List (Bytes × Bytes)) (p : Platform) (sdk : String) : Shows (collect inner p sdk) inner p sdk := by
  intro k
  simp only [collect, hget_put]
  cases p <;> rfl

theorem boot_inv (s : Sys Cfg) (o : List (Obs Cfg)) (inner : List (Bytes × Bytes)) (p : Platform) (sdk : String) (e : StartEnv RtUpd)
    (readOk removeOk die : Bool) (out : Outcome) (w : Wr) (killed : Bool) (hi : inner.Pairwise fun x y => x.1 ≠ y.1) (h : Inv s o) :
    Inv (s.boot inner p sdk e readOk removeOk die out w killed).1 (o ++ (s.boot inner p sdk e readOk removeOk die out w killed).2) := by
  have noisy : ∀ (l : List (Obs Cfg)), (∀ x ∈ l, (∃ u, x = .runtime u) ∨ ∃ u r, x = .attempt .disk u r) →
      ∀ pre : List (Obs Cfg), lastReason (pre ++ l) = lastReason pre ∧ platform (pre ++ l) = platform pre ∧ owed (pre ++ l) = owed pre ∧
        acked (pre ++ l) = acked pre ∧ Each Good pre l := by
    intro l
    induction l with
    | nil => intro _ pre; simp [Each]
    | cons x l ih =>
      intro hl pre
      have := ih (fun y hy => hl y (List.mem_cons_of_mem _ hy)) (pre ++ [x])
      simp only [List.append_assoc, List.singleton_append] at this
      obtain ⟨a, b, c, d, f⟩ := this
      rcases hl x List.mem_cons_self with ⟨u, rfl⟩ | ⟨u, r, rfl⟩
      · exact ⟨by rw [a, lastReason_append]; rfl, by rw [b, platform_append]; rfl, by rw [c, owed_append]; rfl, by rw [d, acked_append]; rfl,
          trivial, f⟩
      · exact ⟨by rw [a, lastReason_append]; rfl, by rw [b, platform_append]; rfl, by rw [c, owed_append]; rfl,
          by rw [d, acked_append]; rfl, trivial, f⟩
  have build : ∀ (s' : Sys Cfg) (l : List (Obs Cfg)), (∀ x ∈ l, (∃ u, x = .runtime u) ∨ ∃ u r, x = .attempt .disk u r) →
      s'.conf.version = (confUse (o ++ [.started inner p sdk] ++ l)).map (·.nonce) → s'.snap = rtUse (o ++ [.started inner p sdk] ++ l) →
      s'.reason = none → s'.metadata = collect inner p sdk → Inv s' (o ++ .started inner p sdk :: l) := by
    intro s' l hl hc hs hr hm
    have e : o ++ Obs.started inner p sdk :: l = o ++ [.started inner p sdk] ++ l := by simp
    rw [e]
    obtain ⟨a, b, c, d, f⟩ := noisy l hl (o ++ [.started inner p sdk])
    refine ⟨hc, hs, ?_, ?_, ?_, ?_⟩
    · intro _ _; rw [a, hr, lastReason_append]; rfl
    · intro _; rw [b, platform_append]; exact ⟨inner, p, sdk, rfl, hm, hi⟩
    · rw [c, d, owed_append, acked_append]; exact ⟨[], rfl, by simp, fun _ _ => rfl⟩
    · rw [Each_append, Each_append]; exact ⟨⟨h.good, trivial, trivial⟩, f⟩
  have hc0 : confUse (o ++ [.started inner p sdk]) = none := by rw [confUse_append]; rfl
  have hr0 : rtUse (o ++ [.started inner p sdk]) = none := by rw [rtUse_append]; rfl
  have rtPure : ∀ (x : Option RtUpd) (pre : List (Obs Cfg)), confUse (pre ++ x.toList.map .runtime) = confUse pre ∧
      (rtUse pre = none → rtUse (pre ++ x.toList.map .runtime) = x) := by
    intro x pre
    rw [confUse_append, rtUse_append]
    cases x with
    | none => exact ⟨rfl, fun h => h⟩
    | some u => exact ⟨rfl, fun _ => rfl⟩
  have cfgPure : ∀ (l : List (CfgObs Cfg)) (pre : List (Obs Cfg)), rtUse (pre ++ l.flatMap ofCfgObs) = rtUse pre := by
    intro l
    induction l with
    | nil => intro pre; simp
    | cons x l ih =>
      intro pre
      rw [List.flatMap_cons, ← List.append_assoc, ih]
      cases x with
      | started => simp [ofCfgObs]
      | attempt a b c => rw [rtUse_append]; rfl
  unfold Sys.boot
  dsimp only
  split
  · refine build _ _ ?_ ?_ ?_ rfl rfl
    · intro x hx
      obtain ⟨u, _, rfl⟩ := List.mem_map.1 hx
      exact Or.inl ⟨u, rfl⟩
    · rw [(rtPure _ _).1, hc0]; rfl
    · exact ((rtPure _ _).2 hr0).symm
  · refine build _ _ ?_ ?_ ?_ rfl rfl
    · intro x hx
      rcases List.mem_append.1 hx with hx | hx
      · obtain ⟨u, _, rfl⟩ := List.mem_map.1 hx
        exact Or.inl ⟨u, rfl⟩
      · obtain ⟨y, hy, hx⟩ := List.mem_flatMap.1 hx
        cases y with
        | started => simp [ofCfgObs] at hx
        | attempt a b c =>
          simp only [ofCfgObs, List.mem_singleton] at hx
          subst hx
          have : a = .disk := by
            simp only [Conf.step, Conf.process] at hy
            revert hy
            repeat' split
            all_goals simp +contextual
          subst this
          exact Or.inr ⟨b, c, rfl⟩
    · have hcu : confUse (o ++ [.started inner p sdk] ++ (((s.rt.step (.start e)).2.toList.map Obs.runtime) ++
          ((s.conf.step (.start readOk removeOk die out w)).2.flatMap ofCfgObs))) =
          ((s.conf.step (.start readOk removeOk die out w)).2.flatMap ofCfgObs).foldl (fun v o => match o with
            | .started _ _ _ => none
            | .attempt _ u .ok => some u
            | _ => v) none := by
        rw [← List.append_assoc, confUse_append, (rtPure _ _).1, hc0]
      rw [hcu]
      simp only [Conf.step, Conf.process]
      repeat' split
      all_goals first | rfl | simp_all [ofCfgObs]
    · rw [← List.append_assoc, cfgPure]
      exact ((rtPure _ _).2 hr0).symm

theorem step_inv (s : Sys Cfg) (o : List (Obs Cfg)) (e : Ev Cfg) (h : Inv s o) (hp : Proper [e]) :
    Inv (s.step e).1 (o ++ (s.step e).2) := by
  cases e with
  | start inner p sdk en a b d out w k =>
    exact boot_inv s o inner p sdk en a b d out w k (hp _ List.mem_cons_self inner p sdk en a b d out w k rfl) h
  | die => simpa [Sys.step] using h.down
  | wake =>
    simp only [Sys.step]
    split
    · rw [List.append_nil]
      exact h.api _ s.streamTotal s.connectFailure s.errorShutdown (by
        simp only [Api.step]; split <;> simp_all)
    · simpa using h
  | request r ok =>
    simp only [Sys.step]
    split
    · rw [List.append_nil]
      refine h.api _ s.streamTotal s.connectFailure s.errorShutdown ?_
      simp only [Api.step]
      split
      · rename_i hph; rw [hph]; simp
      · exact id
    · simpa using h
  | pingTimer ok =>
    simp only [Sys.step]
    split
    · rw [List.append_nil]
      refine h.api _ s.streamTotal s.connectFailure s.errorShutdown ?_
      simp only [Api.step]
      split
      · rename_i hph; rw [hph]; simp
      · exact id
    · simpa using h
  | shutdown =>
    simp only [Sys.step]
    split
    · rw [List.append_nil]
      refine h.api _ s.streamTotal s.connectFailure s.errorShutdown ?_
      simp only [Api.step]
      split
      · exact id
      · exact id
      · intro hh; exact absurd rfl hh
    · simpa using h
  | closed r long =>
    have key : ∀ (a : Api) (n : Nat), s.up = true → s.api.phase ≠ .ended →
        Inv ({ s with api := a, reason := some r, connectFailure := n } : Sys Cfg) (o ++ [.closed r]) := by
      intro a n hup hne
      refine ⟨?_, ?_, ?_, ?_, ?_, ?_⟩
      · rw [confUse_append]; exact h.conf
      · rw [rtUse_append]; exact h.snap
      · intro _ _; rw [lastReason_append]; rfl
      · rw [platform_append]; exact h.plat
      · rw [owed_append, acked_append]
        obtain ⟨t, a, b, c⟩ := h.acks
        exact ⟨t, a, b, fun _ _ => c hup hne⟩
      · rw [Each_append]; exact ⟨h.good, trivial, trivial⟩
    simp only [Sys.step]
    split
    · rename_i hup
      split
      · rename_i hph; exact key _ _ hup (by rw [hph]; simp)
      · rename_i hph; exact key _ s.connectFailure hup (by rw [hph]; simp)
      · simpa using h
    · simpa using h
  | data rs w =>
    simp only [Sys.step]
    split
    · rename_i hup
      split
      · simpa using h.api _ s.streamTotal s.connectFailure s.errorShutdown (fun hh => absurd rfl hh)
      · simpa using h
      · rename_i hph; exact greet_inv s o _ _ w h hup hph
      · simpa using h.api _ s.streamTotal s.connectFailure s.errorShutdown (fun hh => absurd rfl hh)
      · rename_i hph; exact handleAll_inv _ s o h hup (by rw [hph]; simp)
      · simpa using h
    · simpa using h
  | open_ started sent =>
    simp only [Sys.step]
    split
    · rename_i hc
      simp only [Bool.and_eq_true, beq_iff_eq] at hc
      obtain ⟨hup, hph⟩ := hc
      have hne : s.api.phase ≠ .ended := by rw [hph]; simp
      split
      · simpa using h.api _ s.streamTotal s.connectFailure s.errorShutdown (fun _ => hne)
      · rename_i hk
        rw [handshake_eq]
        dsimp only
        obtain ⟨inner, p, sdk, hpl, hm, hi⟩ := h.plat hup
        cases started with
        | false =>
          refine ⟨?_, ?_, ?_, ?_, ?_, ?_⟩ <;> simp only [Bool.false_and, List.append_nil, if_neg Bool.false_ne_true]
          · exact h.conf
          · exact h.snap
          · intro _ _; exact h.reason hup hne
          · exact h.plat
          · obtain ⟨t, a, b, c⟩ := h.acks
            exact ⟨t, a, b, fun _ _ => c hup hne⟩
          · exact h.good
        | true =>
          cases sent with
          | false =>
            refine ⟨?_, ?_, ?_, ?_, ?_, ?_⟩ <;> simp only [Bool.and_false, List.append_nil, if_neg Bool.false_ne_true]
            · exact h.conf
            · exact h.snap
            · intro _ hh
              simp [Api.step, hph, hk] at hh
            · exact h.plat
            · obtain ⟨t, a, b, c⟩ := h.acks
              exact ⟨t, a, b, fun _ _ => c hup hne⟩
            · exact h.good
          | true =>
            simp only [Bool.and_true, if_true]
            refine ⟨?_, ?_, ?_, ?_, ?_, ?_⟩
            · rw [confUse_append]; exact h.conf
            · rw [rtUse_append]; exact h.snap
            · intro _ _; rw [lastReason_append]; rfl
            · rw [platform_append]; exact h.plat
            · rw [owed_append, acked_append]
              obtain ⟨t, a, b, c⟩ := h.acks
              exact ⟨t, a, b, fun _ _ => c hup hne⟩
            · rw [Each_append]
              refine ⟨h.good, ?_, trivial⟩
              refine ⟨_, inner, p, sdk, parse_write _ ?_, hpl, ?_, ?_, ?_, ?_⟩
              · show s.metadata.Pairwise _
                rw [hm]; exact collect_keys inner p sdk hi
              · show Shows s.metadata _ _ _
                rw [hm]; exact shows_collect inner p sdk
              · show s.confNonce.getD [] = _
                simp only [Sys.confNonce, h.conf, Option.map_map, List.nil_append]
                rfl
              · show s.rtNonce.getD [] = _
                simp only [Sys.rtNonce, h.snap, List.nil_append]
              · show s.reason.getD [] = _
                rw [h.reason hup hne]
                rfl
    · simpa using h

theorem run_inv (es : List (Ev Cfg)) : ∀ (s : Sys Cfg) (o : List (Obs Cfg)), Inv s o → Proper es →
    Inv (s.run es) (o ++ s.obs es) := by
  induction es with
  | nil => intro s o h _; simpa [Sys.run, Sys.obs] using h
  | cons e es ih =>
    intro s o h hp
    have h1 := step_inv s o e h (fun e' he' => hp e' (by simp at he'; subst he'; exact List.mem_cons_self))
    have := ih _ _ h1 (fun e' he' => hp e' (List.mem_cons_of_mem _ he'))
    simpa [Sys.run, Sys.obs] using this

theorem fresh_inv : Inv (Sys.fresh : Sys Cfg) [] :=
  ⟨rfl, rfl, nofun, nofun, ⟨[], rfl, by simp, fun _ _ => rfl⟩, trivial⟩

/-! ### The claim -/

/-- C100, the handshake: over any number of processes and streams, whatever fails, what a server reads from the bytes a stream starts with
is the metadata of the platform (with the entries the client sets itself), the version of the logger configuration applied last with
success in this process and that of the runtime in use (empty if there is none), and the reason why the stream before ended, once. -/
theorem C100_handshake (es : List (Ev Cfg)) (hp : Proper es) (before after : List (Obs Cfg)) (b : Bytes)
    (h : Sys.fresh.obs es = before ++ .hello b :: after) :
    ∃ hs inner p sdk, Hs.parse b = some hs ∧ platform before = some (inner, p, sdk) ∧ Shows hs.metadata inner p sdk ∧
      hs.confNonce = ((confUse before).map fun u => enc u.nonce).getD [] ∧
      hs.rtNonce = ((rtUse before).map fun u => enc u.nonce).getD [] ∧
      hs.reason = (lastReason before).getD [] := by
  have := (run_inv es Sys.fresh [] fresh_inv hp).good
  exact Each_split Good _ this before after (.hello b) (by simpa using h)

/-- C100, answers: in every process every update is answered, in order, once: refused unless it was applied.  Only the last one can be left
without an answer, and only if the process has died or the task has ended. -/
theorem C100_answers (es : List (Ev Cfg)) (hp : Proper es) :
    ∃ t, owed (Sys.fresh.obs es) = acked (Sys.fresh.obs es) ++ t ∧ t.length ≤ 1 ∧
      ((Sys.fresh.run es).up = true → (Sys.fresh.run es).api.phase ≠ .ended → t = []) := by
  have := (run_inv es Sys.fresh [] fresh_inv hp).acks
  simpa using this

/-- C100, the version in an acknowledgement: if nothing was refused it is that of the configuration in use.  What is missing: it should be
so also when an update is refused (see `C100_nack_violated`). -/
theorem C100_ack_partial (es : List (Ev Cfg)) (hp : Proper es) (before after : List (Obs Cfg)) :
    (∀ v, Sys.fresh.obs es = before ++ .ack (.config v none) :: after → (confUse before).map (·.nonce) = some v) ∧
    (∀ v, Sys.fresh.obs es = before ++ .ack (.runtime v) :: after → (rtUse before).map (·.nonce) = some v) := by
  have := (run_inv es Sys.fresh [] fresh_inv hp).good
  simp only [List.nil_append] at this
  exact ⟨fun v h => Each_split Good _ this before after _ h, fun v h => Each_split Good _ this before after _ h⟩

/-- C100, refusals: a nack names the update taken up just before, which had no configuration or could not be applied; what was in use
stays in use. -/
theorem C100_nack (es : List (Ev Cfg)) (hp : Proper es) (before after : List (Obs Cfg)) (v w : String)
    (h : Sys.fresh.obs es = before ++ .ack (.config v (some w)) :: after) :
    w = v ∧ ∃ l u, u.nonce = v ∧ confUse before = confUse l ∧
      (before = l ++ [.got (some (.configurationUpdate u))] ∧ u.cfg = none ∨
        before = l ++ [.got (some (.configurationUpdate u)), .attempt .server u .err]) := by
  have := (run_inv es Sys.fresh [] fresh_inv hp).good
  simp only [List.nil_append] at this
  obtain ⟨h1, l, u, h2, h3⟩ := Each_split Good _ this before after _ h
  refine ⟨h1, l, u, h2, ?_, h3⟩
  rcases h3 with ⟨rfl, _⟩ | rfl <;> rw [confUse_append] <;> rfl

/-! #### Everything else leaves the configurations alone -/

/-- C100, demultiplexing: a response that is neither of the two updates changes neither what is in use nor what is stored, and is not
acknowledged. -/
theorem C100_others (s : Sys Cfg) (r : Response Cfg) (e : REnv) (h1 : ∀ u, r ≠ some (.configurationUpdate u))
    (h2 : ∀ u, r ≠ some (.runtimeUpdate u)) :
    (s.handle r e).1.conf = s.conf ∧ (s.handle r e).1.snap = s.snap ∧ (s.handle r e).1.rt = s.rt ∧ (s.handle r e).1.up = s.up ∧
      (s.handle r e).2 = [.got r] := by
  match r with
  | none => exact ⟨rfl, rfl, rfl, rfl, rfl⟩
  | some (.configurationUpdate u) => exact absurd rfl (h1 u)
  | some (.runtimeUpdate u) => exact absurd rfl (h2 u)
  | some .opaqueConfigurationUpdate => exact ⟨rfl, rfl, rfl, rfl, rfl⟩
  | some (.handshake p) => exact ⟨rfl, rfl, rfl, rfl, rfl⟩
  | some .pong => exact ⟨rfl, rfl, rfl, rfl, rfl⟩
  | some (.errorShutdown a m) => exact ⟨rfl, rfl, rfl, rfl, rfl⟩
  | some (.logUpload u x) =>
    simp only [Sys.handle, demux]; split <;> exact ⟨rfl, rfl, rfl, rfl, rfl⟩
  | some (.logUploadIntent u x) =>
    simp only [Sys.handle, demux]; split <;> exact ⟨rfl, rfl, rfl, rfl, rfl⟩
  | some (.statsUpload u x) =>
    simp only [Sys.handle, demux]; split <;> exact ⟨rfl, rfl, rfl, rfl, rfl⟩
  | some (.flushBuffers u) =>
    simp only [Sys.handle, demux]; split <;> exact ⟨rfl, rfl, rfl, rfl, rfl⟩
  | some (.opaqueUpload u x) =>
    simp only [Sys.handle, demux]; split <;> exact ⟨rfl, rfl, rfl, rfl, rfl⟩
  | some (.sankeyDiagramUpload u x) =>
    simp only [Sys.handle, demux]; split <;> exact ⟨rfl, rfl, rfl, rfl, rfl⟩
  | some (.sankeyIntentResponse u x) =>
    simp only [Sys.handle, demux]; split <;> exact ⟨rfl, rfl, rfl, rfl, rfl⟩

theorem handle_obs (s : Sys Cfg) (r : Response Cfg) (e : REnv) (x : Obs Cfg) (h : x ∈ (s.handle r e).2) :
    x = .got r ∨ (∃ u, x = .runtime u) ∨ (∃ a u o, x = .attempt a u o) ∨ ∃ a, x = .ack a := by
  have hr : ∀ x ∈ (s.applyRuntime r e).2.1, ∃ u, x = .runtime u := by
    intro x hx
    simp only [Sys.applyRuntime] at hx
    split at hx
    · cases hx
    · split at hx <;> simp at hx <;> exact ⟨_, hx⟩
  have hc : ∀ x ∈ ((s.applyRuntime r e).1.applyConfig r e).2.1, ∃ a u o, x = .attempt a u o := by
    intro x hx
    generalize (s.applyRuntime r e).1 = s' at hx
    have : ∀ (l : List (CfgObs Cfg)), x ∈ l.flatMap ofCfgObs → ∃ a u o, x = .attempt a u o := by
      intro l hl
      obtain ⟨y, _, hy⟩ := List.mem_flatMap.1 hl
      cases y with
      | started => cases hy
      | attempt a u o => exact ⟨a, u, o, by simpa [ofCfgObs] using hy⟩
    simp only [Sys.applyConfig] at hx
    split at hx
    · cases hx
    · split at hx
      · exact this _ hx
      · split at hx <;> exact this _ hx
  unfold Sys.handle at h
  split at h
  · exact Or.inl (by simpa using h)
  · dsimp only at h
    split at h
    · simp only [List.mem_cons, List.mem_append] at h
      rcases h with h | h | h
      · exact Or.inl h
      · exact Or.inr (Or.inl (hr x h))
      · exact Or.inr (Or.inr (Or.inl (hc x h)))
    · simp only [List.mem_cons, List.mem_append, List.mem_map] at h
      rcases h with h | (h | h) | ⟨a, _, h⟩
      · exact Or.inl h
      · exact Or.inr (Or.inl (hr x h))
      · exact Or.inr (Or.inr (Or.inl (hc x h)))
      · exact Or.inr (Or.inr (Or.inr ⟨a, h.symm⟩))
  · dsimp only at h
    split at h <;> exact Or.inl (by simpa using h)

/-- C100, the server is available: the pipelines are told so after everything that came with the handshake was handled. -/
theorem C100_available (s : Sys Cfg) (e : Ev Cfg) (h : Obs.available ∈ (s.step e).2) :
    ∃ ping l, (s.step e).2 = .got (some (.handshake ping)) :: (l ++ [.available]) ∧ Obs.available ∉ l := by
  have hall : ∀ (l : List (Response Cfg × REnv)) (s : Sys Cfg), Obs.available ∉ (s.handleAll l).2 := by
    intro l
    induction l with
    | nil => intro s; simp [Sys.handleAll]
    | cons x l ih =>
      intro s
      have h1 : Obs.available ∉ (s.handle x.1 x.2).2 := by
        intro hx
        rcases handle_obs s x.1 x.2 _ hx with h | ⟨u, h⟩ | ⟨a, b, c, h⟩ | ⟨a, h⟩ <;> cases h
      simp only [Sys.handleAll]
      split
      · simp [h1, ih]
      · exact h1
  cases e with
  | start inner p sdk en a b d out w k =>
    exfalso
    simp only [Sys.step, Sys.boot] at h
    split at h
    · simp at h
    · simp only [List.mem_cons, List.mem_append, List.mem_map, List.mem_flatMap] at h
      rcases h with h | ⟨u, _, h⟩ | ⟨y, _, h⟩
      · cases h
      · cases h
      · cases y <;> simp [ofCfgObs] at h
  | data rs w =>
    simp only [Sys.step] at h ⊢
    split at h
    · rename_i hup
      rw [if_pos hup]
      split at h
      · cases h
      · cases h
      · rename_i hph
        rename_i x xs
        unfold Sys.greet at h ⊢
        split at h
        · rename_i p hd
          dsimp only at h ⊢
          have hx : x.1 = some (.handshake p) := by
            revert hd
            cases x.1 with
            | none => simp [demux]
            | some y => cases y <;> simp [demux]
          split at h
          · rename_i hc
            rw [if_pos hc]
            refine ⟨p, _, by rw [hx], hall _ _⟩
          · exfalso
            rw [List.mem_cons] at h
            rcases h with h | h
            · cases h
            · exact hall _ _ h
        · simp at h
        · simp at h
        · simp at h
      · cases h
      · exact absurd h (hall _ _)
      · cases h
    · cases h
  | open_ a b =>
    exfalso
    simp only [Sys.step] at h
    split at h
    · split at h
      · cases h
      · split at h
        · cases h
        · split at h <;> simp at h
    · cases h
  | closed r l =>
    exfalso
    simp only [Sys.step] at h
    split at h
    · split at h <;> simp at h
    · cases h
  | wake => exfalso; simp only [Sys.step] at h; split at h <;> cases h
  | request r ok => exfalso; simp only [Sys.step] at h; split at h <;> cases h
  | pingTimer ok => exfalso; simp only [Sys.step] at h; split at h <;> cases h
  | shutdown => exfalso; simp only [Sys.step] at h; split at h <;> cases h
  | die => cases h

/-! #### The stream underneath -/

/-- What the model of the stream sees of a response. -/
def respOf (x : Response Cfg × REnv) : Resp :=
  match demux x.1 with
  | none => .unhandled
  | some .untyped => .untyped (if (configOf x.1).isSome || (runtimeOf x.1).isSome then [x.2.sendOk] else [])
  | some k => k.resp

def apiEv : Ev Cfg → Option Verif.Api.Ev
  | .start _ _ _ _ _ _ _ _ _ _ => none
  | .die => none
  | .open_ a b => some (.open_ a b)
  | .data rs _ => some (.data (rs.map fun l => l.map respOf))
  | .closed _ l => some (.closed l)
  | .wake => some .wake
  | .request r ok => some (.request r ok)
  | .pingTimer ok => some (.pingTimer ok)
  | .shutdown => some .shutdown

theorem handle_api (s : Sys Cfg) (r : Response Cfg) (e : REnv) (h : (s.handle r e).1.up = true) :
    (s.handle r e).1.api = (match s.api.respond (respOf (r, e)) with
      | none => s.api.fail
      | some a => a) := by
  match r with
  | none => rfl
  | some .opaqueConfigurationUpdate => rfl
  | some (.handshake p) => rfl
  | some .pong => rfl
  | some (.errorShutdown a m) => rfl
  | some (.logUpload u x) => simp only [Sys.handle, demux, respOf, RKind.resp]; split <;> simp_all
  | some (.logUploadIntent u x) => simp only [Sys.handle, demux, respOf, RKind.resp]; split <;> simp_all
  | some (.statsUpload u x) => simp only [Sys.handle, demux, respOf, RKind.resp]; split <;> simp_all
  | some (.flushBuffers u) => simp only [Sys.handle, demux, respOf, RKind.resp]; split <;> simp_all
  | some (.opaqueUpload u x) => simp only [Sys.handle, demux, respOf, RKind.resp]; split <;> simp_all
  | some (.sankeyDiagramUpload u x) => simp only [Sys.handle, demux, respOf, RKind.resp]; split <;> simp_all
  | some (.sankeyIntentResponse u x) => simp only [Sys.handle, demux, respOf, RKind.resp]; split <;> simp_all
  | some (.runtimeUpdate u) =>
    revert h
    cases hd : e.rtDie <;> cases hs : e.sendOk <;>
      simp [Sys.handle, demux, Sys.applyRuntime, Sys.applyConfig, runtimeOf, configOf, Api.respond, hd, hs, respOf]
  | some (.configurationUpdate u) =>
    revert h
    cases hc : u.cfg <;> cases hs : e.sendOk <;> cases ho : e.out <;>
      simp [Sys.handle, demux, Sys.applyRuntime, Sys.applyConfig, runtimeOf, configOf, Api.respond, hc, hs, ho, respOf]

theorem handleAll_api (l : List (Response Cfg × REnv)) : ∀ (s : Sys Cfg), s.up = true → s.api.phase ≠ .ended →
    (s.handleAll l).1.up = true → (s.handleAll l).1.api = s.api.respondAll (l.map respOf) := by
  induction l with
  | nil => intro s _ _ _; rfl
  | cons x l ih =>
    intro s hup hne h
    simp only [Sys.handleAll] at h ⊢
    simp only [List.map_cons, Api.respondAll]
    split at h
    · rename_i hc
      simp only [Bool.and_eq_true, bne_iff_ne, ne_eq] at hc
      have h1 := handle_api s x.1 x.2 hc.1
      rw [if_pos (by simp [hc.1, hc.2])]
      dsimp only
      rw [ih _ hc.1 hc.2 h]
      revert h1
      cases s.api.respond (respOf (x.1, x.2)) with
      | none => intro h1; exact absurd (by rw [h1]; rfl) hc.2
      | some a => intro h1; rw [h1]
    · rename_i hc
      have h1 := handle_api s x.1 x.2 h
      rw [if_neg hc, h1]
      cases hr : s.api.respond (respOf (x.1, x.2)) with
      | none => rfl
      | some a =>
        exfalso
        apply hc
        rw [hr] at h1
        have := api_respond_phase _ _ _ hr
        simp [h, h1, this, hne]

/-- C100, the stream: as long as the process lives its stream is that of Verif.Api.Stream, so that what is proved there (C17, C52, C63) holds
here. -/
theorem C100_stream (s : Sys Cfg) (e : Ev Cfg) (e' : Verif.Api.Ev) (he : apiEv e = some e') (hup : s.up = true)
    (hup' : (s.step e).1.up = true) : (s.step e).1.api = s.api.step e' := by
  cases e with
  | start => cases he
  | die => cases he
  | wake => cases he; simp [Sys.step, hup]
  | request r ok => cases he; simp [Sys.step, hup]
  | pingTimer ok => cases he; simp [Sys.step, hup]
  | shutdown => cases he; simp [Sys.step, hup]
  | open_ a b =>
    cases he
    simp only [Sys.step, hup, Bool.true_and]
    by_cases hph : s.api.phase = .idle
    · simp only [hph, beq_self_eq_true, if_true]
      split
      · rfl
      · rw [handshake_eq]
    · have : (s.api.phase == .idle) = false := by simpa using hph
      rw [this, if_neg Bool.false_ne_true]
      simp only [Api.step]
  | closed r l =>
    cases he
    simp only [Sys.step, hup, if_true]
    split
    · rfl
    · rfl
    · rename_i h1 h2
      simp only [Api.step]
  | data rs w =>
    cases he
    simp only [Sys.step, hup, if_true] at hup' ⊢
    cases hph : s.api.phase with
    | idle => simp [Api.step, hph]
    | backoff => simp [Api.step, hph]
    | killed => simp [Api.step, hph]
    | ended => simp [Api.step, hph]
    | active =>
      cases rs with
      | none => simp [Api.step, hph]
      | some l =>
        simp only [hph] at hup'
        simp only [Api.step, hph, Option.map_some]
        exact handleAll_api l s hup (by simp [hph]) hup'
    | waiting =>
      match rs with
      | none => simp [Api.step, hph]
      | some [] => simp [Api.step, hph]
      | some (x :: xs) =>
        simp only [hph] at hup'
        simp only [Api.step, hph, Option.map_some, List.map_cons]
        obtain ⟨r, en⟩ := x
        unfold Sys.greet at hup' ⊢
        match r with
        | none => rfl
        | some .opaqueConfigurationUpdate => rfl
        | some .pong => rfl
        | some (.errorShutdown true m) => rfl
        | some (.errorShutdown false m) => rfl
        | some (.logUpload u x) => rfl
        | some (.logUploadIntent u x) => rfl
        | some (.statsUpload u x) => rfl
        | some (.flushBuffers u) => rfl
        | some (.opaqueUpload u x) => rfl
        | some (.sankeyDiagramUpload u x) => rfl
        | some (.sankeyIntentResponse u x) => rfl
        | some (.runtimeUpdate u) => rfl
        | some (.configurationUpdate u) => rfl
        | some (.handshake p) =>
          simp only [demux] at hup' ⊢
          simp only [respOf, demux, RKind.resp]
          have key := handleAll_api xs ({ s with api := { s.api with phase := .active, pingInterval := p, pingArmed := p } } : Sys Cfg)
            hup (by simp)
          generalize hx : ({ s with api := { s.api with phase := .active, pingInterval := p, pingArmed := p } } : Sys Cfg).handleAll xs = x
            at hup' key ⊢
          have hu : x.1.up = true := by
            revert hup'
            split <;> exact id
          have := key hu
          split <;> exact this

/-! #### Counters -/

/-- What an observer counts in this process: whether the current stream had its handshake; streams that ended without one; error
shutdowns, but for a refused authentication at the start of a stream; streams. -/
structure Meter where
  shaken : Bool
  failures : Nat
  errors : Nat
  hellos : Nat
  deriving DecidableEq, Repr

def Meter.step (m : Meter) : Obs Cfg → Meter
  | .started _ _ _ => ⟨false, 0, 0, 0⟩
  | .hello _ => { m with shaken := false, hellos := m.hellos + 1 }
  | .got (some (.handshake _)) => { m with shaken := true }
  | .got (some (.errorShutdown a _)) => if m.shaken || !a then { m with errors := m.errors + 1 } else m
  | .closed _ => if m.shaken then m else { m with failures := m.failures + 1 }
  | _ => m

def meter (o : List (Obs Cfg)) : Meter := o.foldl Meter.step ⟨false, 0, 0, 0⟩

structure Counts (s : Sys Cfg) (o : List (Obs Cfg)) : Prop where
  failures : s.connectFailure = (meter o).failures
  errors : s.errorShutdown = (meter o).errors
  waiting : s.up = true → s.api.phase = .waiting → (meter o).shaken = false
  active : s.up = true → s.api.phase = .active → (meter o).shaken = true
  streams : (meter o).hellos ≤ s.streamTotal ∧ s.streamTotal ≤ (meter o).hellos + 1 ∧
    (s.up = true → s.api.phase ≠ .ended → s.streamTotal = (meter o).hellos)

theorem meter_append (a b : List (Obs Cfg)) : meter (a ++ b) = b.foldl Meter.step (meter a) := List.foldl_append

theorem meter_neutral (l : List (Obs Cfg)) (h : ∀ x ∈ l, ∀ m : Meter, m.step x = m) : ∀ m : Meter, l.foldl Meter.step m = m := by
  induction l with
  | nil => intro m; rfl
  | cons x l ih =>
    intro m
    rw [List.foldl_cons, h x List.mem_cons_self]
    exact ih (fun y hy => h y (List.mem_cons_of_mem _ hy)) m

theorem Counts.quiet {s s' : Sys Cfg} {o : List (Obs Cfg)} (h : Counts s o) (l : List (Obs Cfg)) (hl : ∀ x ∈ l, ∀ m : Meter, m.step x = m)
    (h1 : s'.connectFailure = s.connectFailure) (h2 : s'.errorShutdown = s.errorShutdown) (h3 : s'.streamTotal = s.streamTotal)
    (h4 : s'.up = true → s.up = true) (h5 : s'.up = true → s'.api.phase ≠ .ended → s.api.phase ≠ .ended)
    (h6 : s'.up = true → s'.api.phase = .waiting → s.api.phase = .waiting)
    (h7 : s'.up = true → s'.api.phase = .active → s.api.phase = .active) : Counts s' (o ++ l) := by
  have e : meter (o ++ l) = meter o := by rw [meter_append, meter_neutral l hl]
  exact ⟨by rw [h1, e]; exact h.failures, by rw [h2, e]; exact h.errors, fun a b => by rw [e]; exact h.waiting (h4 a) (h6 a b),
    fun a b => by rw [e]; exact h.active (h4 a) (h7 a b), by
      rw [h3, e]
      exact ⟨h.streams.1, h.streams.2.1, fun a b => h.streams.2.2 (h4 a) (h5 a b)⟩⟩

theorem handle_phase (s : Sys Cfg) (r : Response Cfg) (e : REnv) (h : (s.handle r e).1.up = true) :
    (s.handle r e).1.api.phase = s.api.phase ∨ (s.handle r e).1.api.phase = .ended := by
  rw [handle_api s r e h]
  cases hr : s.api.respond (respOf (r, e)) with
  | none => exact Or.inr rfl
  | some a => exact Or.inl (api_respond_phase _ _ _ hr)

theorem handle_up (s : Sys Cfg) (r : Response Cfg) (e : REnv) (h : (s.handle r e).1.up = true) : s.up = true := by
  by_cases h1 : ∃ u, r = some (.configurationUpdate u)
  · obtain ⟨u, rfl⟩ := h1
    revert h
    cases hc : u.cfg <;> cases hs : e.sendOk <;> cases ho : e.out <;>
      simp [Sys.handle, demux, Sys.applyRuntime, Sys.applyConfig, runtimeOf, configOf, Api.respond, hc, hs, ho]
  · by_cases h2 : ∃ u, r = some (.runtimeUpdate u)
    · obtain ⟨u, rfl⟩ := h2
      revert h
      cases hd : e.rtDie <;> cases hs : e.sendOk <;>
        simp [Sys.handle, demux, Sys.applyRuntime, Sys.applyConfig, runtimeOf, configOf, Api.respond, hd, hs]
    · rw [(C100_others s r e (fun u hu => h1 ⟨u, hu⟩) (fun u hu => h2 ⟨u, hu⟩)).2.2.2.1] at h
      exact h

theorem handle_meta (s : Sys Cfg) (r : Response Cfg) (e : REnv) :
    (s.handle r e).1.connectFailure = s.connectFailure ∧ (s.handle r e).1.streamTotal = s.streamTotal ∧
      (s.handle r e).1.errorShutdown = s.errorShutdown + (match r with | some (.errorShutdown _ _) => 1 | _ => 0) := by
  match r with
  | none => exact ⟨rfl, rfl, rfl⟩
  | some .opaqueConfigurationUpdate => exact ⟨rfl, rfl, rfl⟩
  | some (.handshake p) => exact ⟨rfl, rfl, rfl⟩
  | some .pong => exact ⟨rfl, rfl, rfl⟩
  | some (.errorShutdown a m) => exact ⟨rfl, rfl, rfl⟩
  | some (.logUpload u x) => simp only [Sys.handle, demux]; split <;> exact ⟨rfl, rfl, rfl⟩
  | some (.logUploadIntent u x) => simp only [Sys.handle, demux]; split <;> exact ⟨rfl, rfl, rfl⟩
  | some (.statsUpload u x) => simp only [Sys.handle, demux]; split <;> exact ⟨rfl, rfl, rfl⟩
  | some (.flushBuffers u) => simp only [Sys.handle, demux]; split <;> exact ⟨rfl, rfl, rfl⟩
  | some (.opaqueUpload u x) => simp only [Sys.handle, demux]; split <;> exact ⟨rfl, rfl, rfl⟩
  | some (.sankeyDiagramUpload u x) => simp only [Sys.handle, demux]; split <;> exact ⟨rfl, rfl, rfl⟩
  | some (.sankeyIntentResponse u x) => simp only [Sys.handle, demux]; split <;> exact ⟨rfl, rfl, rfl⟩
  | some (.runtimeUpdate u) =>
    cases hd : e.rtDie <;> cases hs : e.sendOk <;>
      simp [Sys.handle, demux, Sys.applyRuntime, Sys.applyConfig, runtimeOf, configOf, Api.respond, hd, hs]
  | some (.configurationUpdate u) =>
    cases hc : u.cfg <;> cases hs : e.sendOk <;> cases ho : e.out <;>
      simp [Sys.handle, demux, Sys.applyRuntime, Sys.applyConfig, runtimeOf, configOf, Api.respond, hc, hs, ho]

/-- While the stream has its handshake. -/
theorem handle_counts (s : Sys Cfg) (o : List (Obs Cfg)) (r : Response Cfg) (e : REnv) (h : Counts s o) (hup : s.up = true)
    (hph : s.api.phase = .active) : Counts (s.handle r e).1 (o ++ (s.handle r e).2) := by
  obtain ⟨m1, m2, m3⟩ := handle_meta s r e
  have hsh := h.active hup hph
  have h6 : (s.handle r e).1.up = true → (s.handle r e).1.api.phase = .waiting → s.api.phase = .waiting := by
    intro a b
    rcases handle_phase s r e a with hh | hh
    · rw [← hh, b]
    · rw [hh] at b; cases b
  by_cases he : ∃ a m, r = some (.errorShutdown a m)
  · obtain ⟨a, m, rfl⟩ := he
    have ho : meter (o ++ (s.handle (some (.errorShutdown a m)) e).2) = { meter o with errors := (meter o).errors + 1 } := by
      rw [meter_append]
      show Meter.step (meter o) (Obs.got (some (RType.errorShutdown a m)) : Obs Cfg) = _
      simp [Meter.step, hsh]
    refine ⟨by rw [ho, m1]; exact h.failures, by rw [ho, m3, h.errors], ?_, ?_, ?_⟩
    · intro a b; have := h6 a b; rw [hph] at this; cases this
    · intro _ _; rw [ho]; exact hsh
    · rw [ho, m2]; exact ⟨h.streams.1, h.streams.2.1, fun _ _ => h.streams.2.2 hup (by rw [hph]; simp)⟩
  · by_cases hs : ∃ p, r = some (.handshake p)
    · obtain ⟨p, rfl⟩ := hs
      have ho : meter (o ++ (s.handle (some (.handshake p)) e).2) = meter o := by
        rw [meter_append]
        show Meter.step (meter o) (Obs.got (some (RType.handshake p)) : Obs Cfg) = _
        simp only [Meter.step]
        rw [← hsh]
      refine ⟨by rw [ho, m1]; exact h.failures, by rw [ho, m3]; exact h.errors, ?_, ?_, ?_⟩
      · intro a b; have := h6 a b; rw [hph] at this; cases this
      · intro _ _; rw [ho]; exact hsh
      · rw [ho, m2]; exact ⟨h.streams.1, h.streams.2.1, fun _ _ => h.streams.2.2 hup (by rw [hph]; simp)⟩
    · refine h.quiet _ ?_ m1 ?_ m2 (handle_up s r e) (fun _ _ => by rw [hph]; simp) h6 (fun _ _ => hph)
      · intro x hx m
        rcases handle_obs s r e x hx with rfl | ⟨u, rfl⟩ | ⟨a, u, q, rfl⟩ | ⟨a, rfl⟩
        · match r with
          | none => rfl
          | some (.errorShutdown a m) => exact absurd ⟨a, m, rfl⟩ he
          | some (.handshake p) => exact absurd ⟨p, rfl⟩ hs
          | some .opaqueConfigurationUpdate => rfl
          | some .pong => rfl
          | some (.logUpload u x) => rfl
          | some (.logUploadIntent u x) => rfl
          | some (.statsUpload u x) => rfl
          | some (.flushBuffers u) => rfl
          | some (.opaqueUpload u x) => rfl
          | some (.sankeyDiagramUpload u x) => rfl
          | some (.sankeyIntentResponse u x) => rfl
          | some (.runtimeUpdate u) => rfl
          | some (.configurationUpdate u) => rfl
        · rfl
        · rfl
        · rfl
      · rw [m3]
        match r with
        | none => rfl
        | some (.errorShutdown a m) => exact absurd ⟨a, m, rfl⟩ he
        | some (.handshake p) => exact absurd ⟨p, rfl⟩ hs
        | some .opaqueConfigurationUpdate => rfl
        | some .pong => rfl
        | some (.logUpload u x) => rfl
        | some (.logUploadIntent u x) => rfl
        | some (.statsUpload u x) => rfl
        | some (.flushBuffers u) => rfl
        | some (.opaqueUpload u x) => rfl
        | some (.sankeyDiagramUpload u x) => rfl
        | some (.sankeyIntentResponse u x) => rfl
        | some (.runtimeUpdate u) => rfl
        | some (.configurationUpdate u) => rfl

theorem handleAll_counts (l : List (Response Cfg × REnv)) : ∀ (s : Sys Cfg) (o : List (Obs Cfg)), Counts s o → s.up = true →
    s.api.phase = .active → Counts (s.handleAll l).1 (o ++ (s.handleAll l).2) := by
  induction l with
  | nil => intro s o h _ _; simpa [Sys.handleAll] using h
  | cons x l ih =>
    intro s o h hup hph
    have h1 := handle_counts s o x.1 x.2 h hup hph
    simp only [Sys.handleAll]
    split
    · rename_i hc
      simp only [Bool.and_eq_true, bne_iff_ne, ne_eq] at hc
      have hp : (s.handle x.1 x.2).1.api.phase = .active := by
        rcases handle_phase s x.1 x.2 hc.1 with hh | hh
        · rw [hh, hph]
        · exact absurd hh hc.2
      have := ih _ _ h1 hc.1 hp
      simpa [List.append_assoc] using this
    · exact h1

theorem step_counts (s : Sys Cfg) (o : List (Obs Cfg)) (e : Ev Cfg) (h : Counts s o) : Counts (s.step e).1 (o ++ (s.step e).2) := by
  have still : ∀ a : Api, (a.phase ≠ .ended → s.api.phase ≠ .ended) → (a.phase = .waiting → s.api.phase = .waiting) →
      (a.phase = .active → s.api.phase = .active) → Counts ({ s with api := a } : Sys Cfg) (o ++ []) := by
    intro a h1 h2 h3
    exact h.quiet [] (by simp) rfl rfl rfl id (fun _ => h1) (fun _ => h2) (fun _ => h3)
  have same : Counts s (o ++ []) := by simpa using h
  cases e with
  | start inner p sdk en a b d out w k =>
    simp only [Sys.step, Sys.boot]
    have hn : ∀ (l : List (Obs Cfg)), (∀ x ∈ l, ∀ m : Meter, m.step x = m) → ∀ s' : Sys Cfg, s'.connectFailure = 0 → s'.errorShutdown = 0 →
        s'.streamTotal = 0 → s'.api = Api.init k → Counts s' (o ++ .started inner p sdk :: l) := by
      intro l hl s' h1 h2 h3 h4
      have e : meter (o ++ .started inner p sdk :: l) = ⟨false, 0, 0, 0⟩ := by
        rw [meter_append, List.foldl_cons, meter_neutral l hl]
        rfl
      refine ⟨by rw [e, h1], by rw [e, h2], ?_, ?_, ?_⟩
      · intro _ hh; rw [h4] at hh; cases hh
      · intro _ hh; rw [h4] at hh; cases hh
      · rw [e, h3]; simp
    split
    · refine hn _ ?_ _ rfl rfl rfl rfl
      intro x hx m
      obtain ⟨u, _, rfl⟩ := List.mem_map.1 hx
      rfl
    · refine hn _ ?_ _ rfl rfl rfl rfl
      intro x hx m
      rcases List.mem_append.1 hx with hx | hx
      · obtain ⟨u, _, rfl⟩ := List.mem_map.1 hx
        rfl
      · obtain ⟨y, _, hy⟩ := List.mem_flatMap.1 hx
        cases y with
        | started => cases hy
        | attempt a u o =>
          have : x = .attempt a u o := by simpa [ofCfgObs] using hy
          subst this
          rfl
  | die =>
    simp only [Sys.step]
    exact h.quiet [] (by simp) rfl rfl rfl nofun nofun nofun nofun
  | wake =>
    simp only [Sys.step]
    split
    · refine still _ ?_ ?_ ?_ <;> simp only [Api.step] <;> split <;> simp_all
    · exact same
  | request r ok =>
    simp only [Sys.step]
    split
    · by_cases hph : s.api.phase = .active
      · refine still _ (fun _ => by rw [hph]; simp) ?_ (fun _ => hph)
        simp only [Api.step, hph]
        cases r.kind <;> cases ok <;> simp [Api.track, Api.fail] <;> split <;> simp [hph]
      · have : s.api.step (.request r ok) = s.api := by
          simp only [Api.step]
        exact still _ (by rw [this]; exact id) (by rw [this]; exact id) (by rw [this]; exact id)
    · exact same
  | pingTimer ok =>
    simp only [Sys.step]
    split
    · by_cases hph : s.api.phase = .active
      · refine still _ (fun _ => by rw [hph]; simp) ?_ (fun _ => hph)
        simp only [Api.step, hph]
        repeat' split
        all_goals simp [Api.fail, hph]
      · have : s.api.step (.pingTimer ok) = s.api := by
          simp only [Api.step]
        exact still _ (by rw [this]; exact id) (by rw [this]; exact id) (by rw [this]; exact id)
    · exact same
  | shutdown =>
    simp only [Sys.step]
    split
    · refine still _ ?_ ?_ ?_ <;> simp only [Api.step] <;> split <;> simp_all [Api.fail]
    · exact same
  | closed r long =>
    simp only [Sys.step]
    split
    · rename_i hup
      have hp : ∀ a : Api, (s.api.phase = .waiting ∨ s.api.phase = .active) → a = s.api.step (.closed long) → a.phase ≠ .waiting ∧ a.phase ≠ .active := by
        intro a hh ha
        subst ha
        rcases hh with hh | hh <;> simp only [Api.step, hh]
        · simp
        · split <;> simp
      split
      · rename_i hph
        have hsh := h.waiting hup hph
        have e : meter (o ++ [.closed r]) = { meter o with failures := (meter o).failures + 1 } := by
          rw [meter_append]; simp [Meter.step, hsh]
        have := hp _ (Or.inl hph) rfl
        refine ⟨by rw [e, h.failures], by rw [e]; exact h.errors, fun _ hh => absurd hh this.1, fun _ hh => absurd hh this.2, ?_⟩
        rw [e]
        exact ⟨h.streams.1, h.streams.2.1, fun _ _ => h.streams.2.2 hup (by rw [hph]; simp)⟩
      · rename_i hph
        have hsh := h.active hup hph
        have e : meter (o ++ [.closed r]) = meter o := by
          rw [meter_append]; simp [Meter.step, hsh]
        have := hp _ (Or.inr hph) rfl
        refine ⟨by rw [e]; exact h.failures, by rw [e]; exact h.errors, fun _ hh => absurd hh this.1, fun _ hh => absurd hh this.2, ?_⟩
        rw [e]
        exact ⟨h.streams.1, h.streams.2.1, fun _ _ => h.streams.2.2 hup (by rw [hph]; simp)⟩
      · exact same
    · exact same
  | open_ started sent =>
    simp only [Sys.step]
    split
    · rename_i hc
      simp only [Bool.and_eq_true, beq_iff_eq] at hc
      obtain ⟨hup, hph⟩ := hc
      have hst := h.streams.2.2 hup (by rw [hph]; simp)
      split
      · rename_i hk
        refine still _ (fun _ => by rw [hph]; simp) ?_ ?_ <;> simp [Api.step, hph, hk]
      · rename_i hk
        rw [handshake_eq]
        dsimp only
        cases started with
        | false =>
          simp only [Bool.false_and, if_neg Bool.false_ne_true, List.append_nil]
          refine ⟨h.failures, h.errors, ?_, ?_, ?_⟩
          · intro _ hh; simp [Api.step, hph, hk] at hh
          · intro _ hh; simp [Api.step, hph, hk] at hh
          · refine ⟨by simp only; omega, by simp only; omega, ?_⟩
            intro _ hh; simp [Api.step, hph, hk] at hh
        | true =>
          cases sent with
          | false =>
            simp only [Bool.and_false, if_neg Bool.false_ne_true, List.append_nil]
            refine ⟨h.failures, h.errors, ?_, ?_, ?_⟩
            · intro _ hh; simp [Api.step, hph, hk] at hh
            · intro _ hh; simp [Api.step, hph, hk] at hh
            · refine ⟨by simp only; omega, by simp only; omega, ?_⟩
              intro _ hh; simp [Api.step, hph, hk] at hh
          | true =>
            simp only [Bool.and_true, if_true]
            have e : ∀ b, meter (o ++ [.hello b]) = { meter o with shaken := false, hellos := (meter o).hellos + 1 } := by
              intro b; rw [meter_append]; rfl
            refine ⟨by rw [e]; exact h.failures, by rw [e]; exact h.errors, fun _ _ => by rw [e], ?_, ?_⟩
            · intro _ hh; simp [Api.step, hph, hk] at hh
            · rw [e]; exact ⟨by simp only; omega, by simp only; omega, fun _ _ => by simp only; omega⟩
    · exact same
  | data rs w =>
    simp only [Sys.step]
    split
    · rename_i hup
      split
      · exact still _ (fun hh => absurd rfl hh) nofun nofun
      · exact same
      · rename_i hph
        rename_i x xs
        have hsh := h.waiting hup hph
        have hst := h.streams.2.2 hup (by rw [hph]; simp)
        obtain ⟨r, en⟩ := x
        have plain : (∀ m : Meter, m.step (Obs.got r : Obs Cfg) = m) →
            Counts ({ s with api := s.api.fail } : Sys Cfg) (o ++ [.got r]) := fun hm =>
          h.quiet [.got r] (by simpa using hm) rfl rfl rfl id (fun _ hh => absurd rfl hh) nofun nofun
        dsimp only
        match r with
        | none => exact plain fun _ => rfl
        | some .opaqueConfigurationUpdate => exact plain fun _ => rfl
        | some .pong => exact plain fun _ => rfl
        | some (.logUpload u x) => exact plain fun _ => rfl
        | some (.logUploadIntent u x) => exact plain fun _ => rfl
        | some (.statsUpload u x) => exact plain fun _ => rfl
        | some (.flushBuffers u) => exact plain fun _ => rfl
        | some (.opaqueUpload u x) => exact plain fun _ => rfl
        | some (.sankeyDiagramUpload u x) => exact plain fun _ => rfl
        | some (.sankeyIntentResponse u x) => exact plain fun _ => rfl
        | some (.runtimeUpdate u) => exact plain fun _ => rfl
        | some (.configurationUpdate u) => exact plain fun _ => rfl
        | some (.errorShutdown true m) =>
          simp only [Sys.greet, demux]
          have e : meter (o ++ [.got (some (.errorShutdown true m))]) = meter o := by
            rw [meter_append]; simp [Meter.step, hsh]
          exact ⟨by rw [e]; exact h.failures, by rw [e]; exact h.errors, nofun, nofun, by
            rw [e]; exact ⟨h.streams.1, h.streams.2.1, fun _ _ => hst⟩⟩
        | some (.errorShutdown false m) =>
          simp only [Sys.greet, demux]
          have e : ∀ z, meter (o ++ [.got (some (.errorShutdown false m)), .closed z]) =
              { meter o with errors := (meter o).errors + 1, failures := (meter o).failures + 1 } := by
            intro z; rw [meter_append]; simp [Meter.step, hsh]
          exact ⟨by rw [e, h.failures], by rw [e, h.errors], nofun, nofun, by
            rw [e]; exact ⟨h.streams.1, h.streams.2.1, fun _ _ => hst⟩⟩
        | some (.handshake p) =>
          simp only [Sys.greet, demux]
          have e : meter (o ++ [.got (some (.handshake p))]) = { meter o with shaken := true } := by
            rw [meter_append]; rfl
          have h1 : Counts ({ s with api := { s.api with phase := .active, pingInterval := p, pingArmed := p } } : Sys Cfg)
              (o ++ [.got (some (.handshake p))]) :=
            ⟨by rw [e]; exact h.failures, by rw [e]; exact h.errors, nofun, fun _ _ => by rw [e], by
              rw [e]; exact ⟨h.streams.1, h.streams.2.1, fun _ _ => hst⟩⟩
          have h2 := handleAll_counts xs _ _ h1 hup rfl
          generalize ({ s with api := { s.api with phase := .active, pingInterval := p, pingArmed := p } } : Sys Cfg).handleAll xs = x at h2 ⊢
          split
          · have e2 : o ++ Obs.got (some (.handshake p)) :: (x.2 ++ [.available]) = (o ++ [.got (some (.handshake p))] ++ x.2) ++ [.available] := by simp
            rw [e2]
            refine h2.quiet [.available] (by intro y hy m; simp at hy; subst hy; rfl) rfl rfl rfl id (fun _ => id) (fun _ => id) (fun _ => id)
          · simpa using h2
      · exact still _ (fun hh => absurd rfl hh) nofun nofun
      · rename_i hph; exact handleAll_counts _ s o h hup hph
      · exact same
    · exact same

theorem run_counts (es : List (Ev Cfg)) : ∀ (s : Sys Cfg) (o : List (Obs Cfg)), Counts s o → Counts (s.run es) (o ++ s.obs es) := by
  induction es with
  | nil => intro s o h; simpa [Sys.run, Sys.obs] using h
  | cons e es ih =>
    intro s o h
    have := ih _ _ (step_counts s o e h)
    simpa [Sys.run, Sys.obs] using this

/-- C100, counters: in every process `remote_connect_failure` counts the streams that ended before their handshake, `error_shutdown_total` the
error shutdowns except refused authentications at the start of a stream, and `stream_total` the streams, including one that could not
be opened. -/
theorem C100_counters (es : List (Ev Cfg)) :
    (Sys.fresh.run es).connectFailure = (meter (Sys.fresh.obs es)).failures ∧
    (Sys.fresh.run es).errorShutdown = (meter (Sys.fresh.obs es)).errors ∧
    (meter (Sys.fresh.obs es)).hellos ≤ (Sys.fresh.run es).streamTotal ∧
    (Sys.fresh.run es).streamTotal ≤ (meter (Sys.fresh.obs es)).hellos + 1 ∧
    ((Sys.fresh.run es).up = true → (Sys.fresh.run es).api.phase ≠ .ended →
      (Sys.fresh.run es).streamTotal = (meter (Sys.fresh.obs es)).hellos) := by
  have h0 : Counts (Sys.fresh : Sys Cfg) [] := ⟨rfl, rfl, nofun, nofun, by simp [meter, Sys.fresh]⟩
  have := run_counts es _ _ h0
  simp only [List.nil_append] at this
  exact ⟨this.failures, this.errors, this.streams.1, this.streams.2.1, this.streams.2.2⟩

/-! #### Restarts -/

/-- The responses of an event. -/
def Ev.responses : Ev Cfg → List (Response Cfg)
  | .data (some l) _ => l.map (·.1)
  | _ => []

def Ev.isStart : Ev Cfg → Bool
  | .start _ _ _ _ _ _ _ _ _ _ => true
  | _ => false

theorem handle_conf (s : Sys Cfg) (r : Response Cfg) (e : REnv) (h1 : ∀ u, r ≠ some (.configurationUpdate u)) : (s.handle r e).1.conf = s.conf := by
  by_cases h2 : ∃ u, r = some (.runtimeUpdate u)
  · obtain ⟨u, rfl⟩ := h2
    cases hd : e.rtDie <;> cases hs : e.sendOk <;>
      simp [Sys.handle, demux, Sys.applyRuntime, Sys.applyConfig, runtimeOf, configOf, Api.respond, hd, hs]
  · exact (C100_others s r e h1 fun u hu => h2 ⟨u, hu⟩).1

theorem handle_rt (s : Sys Cfg) (r : Response Cfg) (e : REnv) (h1 : ∀ u, r ≠ some (.runtimeUpdate u)) : (s.handle r e).1.rt = s.rt := by
  by_cases h2 : ∃ u, r = some (.configurationUpdate u)
  · obtain ⟨u, rfl⟩ := h2
    cases hc : u.cfg <;> cases hs : e.sendOk <;> cases ho : e.out <;>
      simp [Sys.handle, demux, Sys.applyRuntime, Sys.applyConfig, runtimeOf, configOf, Api.respond, hc, hs, ho]
  · exact (C100_others s r e (fun u hu => h2 ⟨u, hu⟩) h1).2.2.1

theorem handleAll_conf (l : List (Response Cfg × REnv)) : ∀ s : Sys Cfg, (∀ x ∈ l, ∀ u, x.1 ≠ some (.configurationUpdate u)) →
    (s.handleAll l).1.conf = s.conf := by
  induction l with
  | nil => intro s _; rfl
  | cons x l ih =>
    intro s h
    have h1 := handle_conf s x.1 x.2 (h x List.mem_cons_self)
    simp only [Sys.handleAll]
    split
    · rw [ih _ fun y hy => h y (List.mem_cons_of_mem _ hy), h1]
    · exact h1

theorem handleAll_rt (l : List (Response Cfg × REnv)) : ∀ s : Sys Cfg, (∀ x ∈ l, ∀ u, x.1 ≠ some (.runtimeUpdate u)) →
    (s.handleAll l).1.rt = s.rt := by
  induction l with
  | nil => intro s _; rfl
  | cons x l ih =>
    intro s h
    have h1 := handle_rt s x.1 x.2 (h x List.mem_cons_self)
    simp only [Sys.handleAll]
    split
    · rw [ih _ fun y hy => h y (List.mem_cons_of_mem _ hy), h1]
    · exact h1

theorem open_disk (s : Sys Cfg) (a b : Bool) : (s.step (.open_ a b)).1.conf = s.conf ∧ (s.step (.open_ a b)).1.rt = s.rt := by
  simp only [Sys.step]
  split
  · split
    · exact ⟨rfl, rfl⟩
    · rw [handshake_eq]; exact ⟨rfl, rfl⟩
  · exact ⟨rfl, rfl⟩

theorem closed_disk (s : Sys Cfg) (r : Bytes) (l : Bool) : (s.step (.closed r l)).1.conf = s.conf ∧ (s.step (.closed r l)).1.rt = s.rt := by
  simp only [Sys.step]
  split
  · split <;> exact ⟨rfl, rfl⟩
  · exact ⟨rfl, rfl⟩

theorem step_conf (s : Sys Cfg) (e : Ev Cfg) (hs : e.isStart = false) (hr : ∀ r ∈ e.responses, ∀ u, r ≠ some (.configurationUpdate u)) :
    (s.step e).1.conf = s.conf := by
  cases e with
  | start => cases hs
  | die => rfl
  | open_ a b => exact (open_disk s a b).1
  | closed r l => exact (closed_disk s r l).1
  | wake => simp only [Sys.step]; split <;> rfl
  | request r ok => simp only [Sys.step]; split <;> rfl
  | pingTimer ok => simp only [Sys.step]; split <;> rfl
  | shutdown => simp only [Sys.step]; split <;> rfl
  | data rs w =>
    simp only [Sys.step]
    split
    · split
      · rfl
      · rfl
      · rename_i x xs _
        have hx : ∀ y ∈ xs, ∀ u, y.1 ≠ some (.configurationUpdate u) := fun y hy u =>
          hr y.1 (List.mem_map_of_mem (f := (·.1)) (List.mem_cons_of_mem _ hy)) u
        simp only [Sys.greet]
        split
        · split <;> exact handleAll_conf xs _ hx
        · rfl
        · rfl
        · rfl
      · rfl
      · rename_i xs _
        exact handleAll_conf xs s fun y hy u => hr y.1 (List.mem_map_of_mem (f := (·.1)) hy) u
      · rfl
    · rfl

/-- The cached runtime after an update, with no start counted since. -/
def Cached (s : Sys Cfg) (u : RtUpd) : Prop := s.rt.disk = ⟨some (some 0), some (some u)⟩

theorem step_rt (s : Sys Cfg) (e : Ev Cfg) (v : RtUpd) (h : Cached s v) (hs : e.isStart = false)
    (hw : ∀ rs w, e = .data rs w → w ≠ .torn) (hr : ∀ r ∈ e.responses, ∀ u, r ≠ some (.runtimeUpdate u)) : Cached (s.step e).1 v := by
  have keep : ∀ t : Sys Cfg, t.rt = s.rt → Cached t v := fun t ht => by unfold Cached; rw [ht]; exact h
  cases e with
  | start => cases hs
  | die => exact h
  | open_ a b => exact keep _ (open_disk s a b).2
  | closed r l => exact keep _ (closed_disk s r l).2
  | wake => simp only [Sys.step]; split <;> exact h
  | request r ok => simp only [Sys.step]; split <;> exact h
  | pingTimer ok => simp only [Sys.step]; split <;> exact h
  | shutdown => simp only [Sys.step]; split <;> exact h
  | data rs w =>
    replace hw := hw rs w rfl
    simp only [Sys.step]
    split
    · split
      · exact h
      · exact h
      · rename_i x xs _
        have hx : ∀ y ∈ xs, ∀ u, y.1 ≠ some (.runtimeUpdate u) := fun y hy u =>
          hr y.1 (List.mem_map_of_mem (f := (·.1)) (List.mem_cons_of_mem _ hy)) u
        simp only [Sys.greet]
        split
        · rename_i p _
          have e1 := handleAll_rt xs ({ s with api := { s.api with phase := .active, pingInterval := p, pingArmed := p } } : Sys Cfg) hx
          split
          · unfold Cached
            dsimp only
            rw [e1]
            have hd : s.rt.disk = ⟨some (some 0), some (some v)⟩ := h
            cases w with
            | torn => exact absurd rfl hw
            | ok => simp only [Rt.step]; split <;> simp [RtDisk.persist, hd]
            | fail => simp only [Rt.step]; split <;> simp [RtDisk.persist, hd]
          · exact keep _ e1
        · exact h
        · exact h
        · exact h
      · exact h
      · rename_i xs _
        exact keep _ (handleAll_rt xs s fun y hy u => hr y.1 (List.mem_map_of_mem (f := (·.1)) hy) u)
      · exact h
    · exact h

theorem run_conf (es : List (Ev Cfg)) : ∀ s : Sys Cfg, (∀ e ∈ es, e.isStart = false ∧ ∀ r ∈ e.responses, ∀ u, r ≠ some (.configurationUpdate u)) →
    (s.run es).conf = s.conf := by
  induction es with
  | nil => intro s _; rfl
  | cons e es ih =>
    intro s h
    have h1 := h e List.mem_cons_self
    show ((s.step e).1.run es).conf = _
    rw [ih _ fun x hx => h x (List.mem_cons_of_mem _ hx), step_conf s e h1.1 h1.2]

theorem run_rt (es : List (Ev Cfg)) (v : RtUpd) : ∀ s : Sys Cfg, Cached s v →
    (∀ e ∈ es, e.isStart = false ∧ (∀ rs w, e = .data rs w → w ≠ .torn) ∧ ∀ r ∈ e.responses, ∀ u, r ≠ some (.runtimeUpdate u)) → Cached (s.run es) v := by
  induction es with
  | nil => intro s h _; exact h
  | cons e es ih =>
    intro s h hq
    have h1 := hq e List.mem_cons_self
    exact ih _ (step_rt s e v h h1.1 h1.2.1 h1.2.2) fun x hx => hq x (List.mem_cons_of_mem _ hx)

theorem run_append (a b : List (Ev Cfg)) : ∀ s : Sys Cfg, s.run (a ++ b) = (s.run a).run b := by
  induction a with
  | nil => intro s; rfl
  | cons e a ih => intro s; exact ih _

/-- What the first stream of a process says. -/
theorem boot_open (s : Sys Cfg) (inner : List (Bytes × Bytes)) (p : Platform) (sdk : String) (en : StartEnv RtUpd) (readOk removeOk die : Bool)
    (out : Outcome) (w : Wr) (hin : inner.Pairwise fun x y => x.1 ≠ y.1) (h1 : en.dieAfterIncr = false) (h2 : die = false) (h3 : out ≠ .die) :
    ∃ b hs, ((s.step (.start inner p sdk en readOk removeOk die out w false)).1.step (.open_ true true)).2 = [.hello b] ∧ Hs.parse b = some hs ∧
      hs.confNonce = ((s.conf.step (.start readOk removeOk die out w)).1.version.map enc).getD [] ∧
      hs.rtNonce = (((s.rt.step (.start en)).2).map fun u => enc u.nonce).getD [] := by
  have ho : (!(die || out == .die)) = true := by cases out <;> simp_all
  simp only [Sys.step, Sys.boot, h1, if_neg Bool.false_ne_true, ho, Api.init, beq_self_eq_true, Bool.true_and, if_true, handshake_eq]
  exact ⟨_, _, rfl, parse_write _ (collect_keys _ _ _ hin), rfl, rfl⟩

/-- C100, a restart: after an update of the logger configuration that was applied and written, whatever else happens, short of another one, the next
process that loads it without failures tells the server its version in the first stream. -/
theorem C100_restart (s : Sys Cfg) (u : Upd Cfg) (e : REnv) (w : Wr) (es : List (Ev Cfg)) (inner : List (Bytes × Bytes)) (p : Platform) (sdk : String)
    (en : StartEnv RtUpd) (w' : Wr) (hup : s.up = true) (hph : s.api.phase = .active) (hc : u.cfg.isSome = true) (ho : e.out = .ok) (hw : e.confW = .ok)
    (hq : ∀ x ∈ es, x.isStart = false ∧ ∀ r ∈ x.responses, ∀ u, r ≠ some (.configurationUpdate u))
    (hin : inner.Pairwise fun x y => x.1 ≠ y.1) (hd : en.dieAfterIncr = false) :
    ∃ b hs, ((s.run (.data (some [(some (.configurationUpdate u), e)]) w :: es ++ [.start inner p sdk en true true false .ok w' false])).step
        (.open_ true true)).2 = [.hello b] ∧ Hs.parse b = some hs ∧ hs.confNonce = enc u.nonce := by
  rw [run_append]
  have hf : ((s.step (.data (some [(some (.configurationUpdate u), e)]) w)).1.run es).conf.file = some (some u) := by
    rw [run_conf es _ hq]
    obtain ⟨n, c⟩ := u
    cases c with
    | none => cases hc
    | some c =>
      simp only [Sys.step, hup, hph, if_true, Sys.handleAll]
      cases hs : e.sendOk <;>
        simp [Sys.handle, demux, Sys.applyRuntime, Sys.applyConfig, runtimeOf, configOf, Api.respond, Conf.process, ho, hw, hs, Api.fail]
  obtain ⟨b, hs, h1, h2, h3, _⟩ := boot_open (s.run (.data (some [(some (.configurationUpdate u), e)]) w :: es)) inner p sdk en true true false .ok w' hin hd rfl nofun
  refine ⟨b, hs, h1, h2, ?_⟩
  rw [h3]
  have hf' : (s.run (.data (some [(some (.configurationUpdate u), e)]) w :: es)).conf.file = some (some u) := hf
  obtain ⟨n, c⟩ := u
  cases c with
  | none => cases hc
  | some c => simp [Conf.step, hf', Conf.process]

/-- C100, a restart: the same for the runtime, if the retry count could be written as well. -/
theorem C100_restart_runtime (s : Sys Cfg) (u : RtUpd) (e : REnv) (w : Wr) (es : List (Ev Cfg)) (inner : List (Bytes × Bytes)) (p : Platform) (sdk : String)
    (en : StartEnv RtUpd) (a b d : Bool) (out : Outcome) (w' : Wr) (hup : s.up = true) (hph : s.api.phase = .active)
    (ht : e.rtW = .ok) (hdie : e.rtDie = false) (ht' : e.rtW' = .ok)
    (hq : ∀ x ∈ es, x.isStart = false ∧ (∀ rs w, x = .data rs w → w ≠ .torn) ∧ ∀ r ∈ x.responses, ∀ u, r ≠ some (.runtimeUpdate u))
    (hin : inner.Pairwise fun x y => x.1 ≠ y.1) (hd : d = false) (ho : out ≠ .die)
    (hr : en.readRetry = true) (hi : en.incr = .ok) (hn : en.dieAfterIncr = false) (hrc : en.readCache = true) :
    ∃ x hs, ((s.run (.data (some [(some (.runtimeUpdate u), e)]) w :: es ++ [.start inner p sdk en a b d out w' false])).step
        (.open_ true true)).2 = [.hello x] ∧ Hs.parse x = some hs ∧ hs.rtNonce = enc u.nonce := by
  rw [run_append]
  have hf : Cached (s.step (.data (some [(some (.runtimeUpdate u), e)]) w)).1 u := by
    simp only [Sys.step, hup, hph, if_true, Sys.handleAll, Cached]
    cases hs : e.sendOk <;>
      simp [Sys.handle, demux, Sys.applyRuntime, Sys.applyConfig, runtimeOf, configOf, Api.respond, Rt.step, RtDisk.cacheUpdate, RtDisk.persist,
        ht, ht', hdie, hs, Api.fail]
  have hf' : Cached (s.run (.data (some [(some (.runtimeUpdate u), e)]) w :: es)) u := run_rt es u _ hf hq
  obtain ⟨x, hs, h1, h2, _, h4⟩ := boot_open (s.run (.data (some [(some (.runtimeUpdate u), e)]) w :: es)) inner p sdk en a b d out w' hin hn hd ho
  refine ⟨x, hs, h1, h2, ?_⟩
  rw [h4]
  have hd : (s.run (.data (some [(some (.runtimeUpdate u), e)]) w :: es)).rt.disk = _ := hf'
  simp [Rt.step, hd, RtDisk.start, RtDisk.persist, hr, hi, hn, hrc]

/-! #### Only what the server sent comes into use -/

/-- What the server sent, and what a torn write of the runtime left. -/
def Sent (H : Upd Cfg → Prop) (K : RtUpd → Prop) : Ev Cfg → Prop
  | .data (some l) _ => ∀ x ∈ l, (∀ u, x.1 = some (.configurationUpdate u) → H u) ∧ (∀ u, x.1 = some (.runtimeUpdate u) → K u) ∧
      ∀ u, x.2.rtTorn = some u → K u
  | .start _ _ _ en _ _ _ _ _ _ => ∀ u, en.tornCache = some u → K u
  | _ => True

def Uses (H : Upd Cfg → Prop) (K : RtUpd → Prop) : Obs Cfg → Prop
  | .attempt _ u _ => H u
  | .runtime u => K u
  | _ => True

def Stored (H : Upd Cfg → Prop) (K : RtUpd → Prop) (s : Sys Cfg) : Prop :=
  (∀ u, s.conf.file = some (some u) → H u) ∧ ∀ u, s.rt.disk.cache = some (some u) → K u

theorem handle_stored (H : Upd Cfg → Prop) (K : RtUpd → Prop) (s : Sys Cfg) (r : Response Cfg) (e : REnv) (h : Stored H K s)
    (h1 : ∀ u, r = some (.configurationUpdate u) → H u) (h2 : ∀ u, r = some (.runtimeUpdate u) → K u) (h3 : ∀ u, e.rtTorn = some u → K u) :
    Stored H K (s.handle r e).1 ∧ ∀ x ∈ (s.handle r e).2, Uses H K x := by
  by_cases hr : ∃ u, r = some (.runtimeUpdate u)
  · obtain ⟨u, rfl⟩ := hr
    have hk := h2 u rfl
    refine ⟨⟨?_, ?_⟩, ?_⟩
    · rw [handle_conf s _ e (fun _ hh => by cases hh)]; exact h.1
    · have : (s.handle (some (.runtimeUpdate u)) e).1.rt = (s.rt.step (.update u e.rtW e.rtTorn e.rtDie e.rtW')).1 := by
        cases hd : e.rtDie <;> cases hs : e.sendOk <;>
          simp [Sys.handle, demux, Sys.applyRuntime, Sys.applyConfig, runtimeOf, configOf, Api.respond, hd, hs]
      rw [this]
      have hc : (s.rt.step (.update u e.rtW e.rtTorn e.rtDie e.rtW')).1.disk.cache = (s.rt.disk.cacheUpdate u e.rtTorn e.rtW).cache := by
        simp only [Rt.step]
        split
        · rfl
        · cases e.rtW' <;> rfl
      rw [hc]
      intro v hv
      cases hw : e.rtW <;> rw [hw] at hv <;> simp only [RtDisk.cacheUpdate] at hv
      · cases hv; exact hk
      · exact h.2 v hv
      · exact h3 v (by simpa using hv)
    · have : ∀ x ∈ (s.handle (some (.runtimeUpdate u)) e).2, x = .got (some (.runtimeUpdate u)) ∨ x = .runtime u ∨ ∃ a, x = .ack a := by
        cases hd : e.rtDie <;> cases hs : e.sendOk <;>
          simp [Sys.handle, demux, Sys.applyRuntime, Sys.applyConfig, runtimeOf, configOf, Api.respond, hd, hs]
      intro x hx
      rcases this x hx with rfl | rfl | ⟨a, rfl⟩
      · trivial
      · exact hk
      · trivial
  · by_cases hc : ∃ u, r = some (.configurationUpdate u)
    · obtain ⟨u, rfl⟩ := hc
      have hh := h1 u rfl
      refine ⟨⟨?_, ?_⟩, ?_⟩
      · have : (s.handle (some (.configurationUpdate u)) e).1.conf = (s.conf.process .server u e.out e.confW).1 := by
          cases hc : u.cfg <;> cases hs : e.sendOk <;> cases ho : e.out <;>
            simp [Sys.handle, demux, Sys.applyRuntime, Sys.applyConfig, runtimeOf, configOf, Api.respond, hc, hs, ho]
        rw [this]
        intro v hv
        cases hc : u.cfg <;> cases ho : e.out <;> cases hw : e.confW <;> simp [Conf.process, hc, ho, hw] at hv <;>
          first
            | exact h.1 v hv
            | (subst hv; exact hh)
      · rw [handle_rt s _ e (fun _ hh => by cases hh)]; exact h.2
      · have : ∀ x ∈ (s.handle (some (.configurationUpdate u)) e).2, x = .got (some (.configurationUpdate u)) ∨ (∃ a o, x = .attempt a u o) ∨ ∃ a, x = .ack a := by
          cases hc : u.cfg <;> cases hs : e.sendOk <;> cases ho : e.out <;>
            simp [Sys.handle, demux, Sys.applyRuntime, Sys.applyConfig, runtimeOf, configOf, Api.respond, hc, hs, ho, Conf.process, ofCfgObs]
        intro x hx
        rcases this x hx with rfl | ⟨a, o, rfl⟩ | ⟨a, rfl⟩
        · trivial
        · exact hh
        · trivial
    · obtain ⟨a, b, c, d, e'⟩ := C100_others s r e (fun u hu => hc ⟨u, hu⟩) (fun u hu => hr ⟨u, hu⟩)
      refine ⟨⟨by rw [a]; exact h.1, by rw [c]; exact h.2⟩, ?_⟩
      rw [e']
      intro x hx
      simp at hx
      subst hx
      trivial

theorem handleAll_stored (H : Upd Cfg → Prop) (K : RtUpd → Prop) (l : List (Response Cfg × REnv)) : ∀ s : Sys Cfg, Stored H K s →
    (∀ x ∈ l, (∀ u, x.1 = some (.configurationUpdate u) → H u) ∧ (∀ u, x.1 = some (.runtimeUpdate u) → K u) ∧ ∀ u, x.2.rtTorn = some u → K u) →
    Stored H K (s.handleAll l).1 ∧ ∀ x ∈ (s.handleAll l).2, Uses H K x := by
  induction l with
  | nil => intro s h _; exact ⟨h, by simp [Sys.handleAll]⟩
  | cons x l ih =>
    intro s h hl
    obtain ⟨a, b, c⟩ := hl x List.mem_cons_self
    have h1 := handle_stored H K s x.1 x.2 h a b c
    simp only [Sys.handleAll]
    split
    · have h2 := ih _ h1.1 fun y hy => hl y (List.mem_cons_of_mem _ hy)
      refine ⟨h2.1, ?_⟩
      intro y hy
      rcases List.mem_append.1 hy with hy | hy
      · exact h1.2 y hy
      · exact h2.2 y hy
    · exact h1

theorem step_stored (H : Upd Cfg → Prop) (K : RtUpd → Prop) (s : Sys Cfg) (e : Ev Cfg) (h : Stored H K s) (he : Sent H K e) :
    Stored H K (s.step e).1 ∧ ∀ x ∈ (s.step e).2, Uses H K x := by
  have keep : ∀ (t : Sys Cfg) (l : List (Obs Cfg)), t.conf = s.conf → t.rt = s.rt → (∀ x ∈ l, Uses H K x) → Stored H K t ∧ ∀ x ∈ l, Uses H K x :=
    fun t l h1 h2 h3 => ⟨⟨by rw [h1]; exact h.1, by rw [h2]; exact h.2⟩, h3⟩
  have nil : ∀ x ∈ ([] : List (Obs Cfg)), Uses H K x := by simp
  cases e with
  | die => exact keep _ _ rfl rfl nil
  | wake => simp only [Sys.step]; split <;> exact keep _ _ rfl rfl nil
  | request r ok => simp only [Sys.step]; split <;> exact keep _ _ rfl rfl nil
  | pingTimer ok => simp only [Sys.step]; split <;> exact keep _ _ rfl rfl nil
  | shutdown => simp only [Sys.step]; split <;> exact keep _ _ rfl rfl nil
  | open_ a b =>
    refine keep _ _ (open_disk s a b).1 (open_disk s a b).2 ?_
    simp only [Sys.step]
    split
    · split
      · exact nil
      · rw [handshake_eq]
        dsimp only
        split
        · intro x hx; simp at hx; subst hx; trivial
        · exact nil
    · exact nil
  | closed r l =>
    refine keep _ _ (closed_disk s r l).1 (closed_disk s r l).2 ?_
    simp only [Sys.step]
    split
    · split
      · intro x hx; simp at hx; subst hx; trivial
      · intro x hx; simp at hx; subst hx; trivial
      · exact nil
    · exact nil
  | data rs w =>
    simp only [Sys.step]
    split
    · split
      · exact keep _ _ rfl rfl nil
      · exact keep _ _ rfl rfl nil
      · rename_i x xs _
        have hx := fun y hy => he y (List.mem_cons_of_mem _ hy)
        have hg : ∀ z ∈ [Obs.got x.1], Uses H K z := by intro z hz; simp at hz; subst hz; trivial
        simp only [Sys.greet]
        split
        · rename_i p _
          have h1 := handleAll_stored H K xs ({ s with api := { s.api with phase := .active, pingInterval := p, pingArmed := p } } : Sys Cfg) h hx
          split
          · refine ⟨⟨h1.1.1, ?_⟩, ?_⟩
            · intro u hu
              refine h1.1.2 u ?_
              rw [← hu]
              simp only [Rt.step]
              split
              · rfl
              · cases w <;> rfl
            · intro z hz
              simp only [List.mem_cons, List.mem_append] at hz
              rcases hz with rfl | hz | rfl | hz
              · trivial
              · exact h1.2 z hz
              · trivial
              · cases hz
          · refine ⟨h1.1, ?_⟩
            intro z hz
            rcases List.mem_cons.1 hz with rfl | hz
            · trivial
            · exact h1.2 z hz
        · exact keep _ _ rfl rfl hg
        · refine keep _ _ rfl rfl ?_
          intro z hz
          simp at hz
          rcases hz with rfl | rfl <;> trivial
        · exact keep _ _ rfl rfl hg
      · exact keep _ _ rfl rfl nil
      · exact handleAll_stored H K _ s h he
      · exact keep _ _ rfl rfl nil
    · exact keep _ _ rfl rfl nil
  | start inner p sdk en a b d out w k =>
    have hrt : (∀ u, (s.rt.step (.start en)).1.disk.cache = some (some u) → K u) ∧ ∀ u, (s.rt.step (.start en)).2 = some u → K u := by
      have hwipe : ∀ (x : RtDisk RtUpd), x.cache = s.rt.disk.cache → ∀ u, (x.wipe en).cache = some (some u) → K u := by
        intro x hx u hu
        simp only [RtDisk.wipe] at hu
        split at hu
        · cases hu
        · rw [hx] at hu; exact h.2 u hu
      have hpers : ∀ n, (s.rt.disk.persist n en.incr).1.cache = s.rt.disk.cache := by
        intro n; cases en.incr <;> rfl
      simp only [Rt.step]
      unfold RtDisk.start
      split
      · rename_i r c hr hc
        split
        · split
          · exact ⟨hwipe _ rfl, nofun⟩
          · dsimp only
            split
            · exact ⟨fun u hu => h.2 u (by rw [← hpers]; exact hu), nofun⟩
            · split
              · exact ⟨hwipe _ (hpers _), nofun⟩
              · split
                · exact ⟨hwipe _ (hpers _), nofun⟩
                · split
                  · exact ⟨hwipe _ (hpers _), nofun⟩
                  · rename_i v hv
                    have hv' : K v := by
                      split at hv
                      · exact h.2 v (by rw [hc, hv])
                      · cases hv
                    refine ⟨?_, fun u hu => by cases hu; exact hv'⟩
                    intro u hu
                    cases hw : en.writeBack <;> rw [hw] at hu <;> simp only [RtDisk.cacheUpdate] at hu
                    · cases hu; exact hv'
                    · exact h.2 u (by rw [← hpers]; exact hu)
                    · exact he u (by simpa using hu)
        · exact ⟨hwipe _ rfl, nofun⟩
      · exact ⟨hwipe _ rfl, nofun⟩
    have hobs : ∀ x ∈ ((s.rt.step (.start en)).2.toList.map Obs.runtime : List (Obs Cfg)), Uses H K x := by
      intro x hx
      obtain ⟨u, hu, rfl⟩ := List.mem_map.1 hx
      exact hrt.2 u (by simpa using hu)
    simp only [Sys.step, Sys.boot]
    split
    · refine ⟨⟨h.1, hrt.1⟩, ?_⟩
      intro x hx
      rcases List.mem_cons.1 hx with rfl | hx
      · trivial
      · exact hobs x hx
    · have hcf : (∀ u, (s.conf.step (.start a b d out w)).1.file = some (some u) → H u) ∧
          ∀ x ∈ (s.conf.step (.start a b d out w)).2.flatMap ofCfgObs, Uses H K x := by
        have none' : ∀ x ∈ ([CfgObs.started] : List (CfgObs Cfg)).flatMap ofCfgObs, Uses H K x := by
          intro x hx; simp [ofCfgObs] at hx
        simp only [Conf.step]
        split
        · exact ⟨h.1, none'⟩
        · rename_i content hcont
          split
          · exact ⟨h.1, none'⟩
          · split
            · exact ⟨nofun, none'⟩
            · rename_i u
              have hu := h.1 u hcont
              split
              · exact ⟨nofun, none'⟩
              · cases hc : u.cfg <;> cases out <;> cases w <;> simp [Conf.process, hc, ofCfgObs, Uses, hu] <;>
                  (intro v hv; subst hv; exact hu)
      refine ⟨⟨hcf.1, hrt.1⟩, ?_⟩
      intro x hx
      rcases List.mem_cons.1 hx with rfl | hx
      · trivial
      · rcases List.mem_append.1 hx with hx | hx
        · exact hobs x hx
        · exact hcf.2 x hx

theorem run_stored (H : Upd Cfg → Prop) (K : RtUpd → Prop) (es : List (Ev Cfg)) : ∀ s : Sys Cfg, Stored H K s → (∀ e ∈ es, Sent H K e) →
    ∀ x ∈ s.obs es, Uses H K x := by
  induction es with
  | nil => intro s _ _ x hx; cases hx
  | cons e es ih =>
    intro s h he x hx
    obtain ⟨h1, h2⟩ := step_stored H K s e h (he e List.mem_cons_self)
    rcases List.mem_append.1 hx with hx | hx
    · exact h2 x hx
    · exact ih _ h1 (fun y hy => he y (List.mem_cons_of_mem _ hy)) x hx

theorem uses_conf (H : Upd Cfg → Prop) (K : RtUpd → Prop) (o : List (Obs Cfg)) (h : ∀ x ∈ o, Uses H K x) :
    (∀ u, confUse o = some u → H u) ∧ ∀ u, rtUse o = some u → K u := by
  have g : ∀ (o : List (Obs Cfg)) (v : Option (Upd Cfg)) (r : Option RtUpd), (∀ x ∈ o, Uses H K x) → (∀ u, v = some u → H u) →
      (∀ u, r = some u → K u) → (∀ u, o.foldl (fun v o => match o with
        | .started _ _ _ => none
        | .attempt _ u .ok => some u
        | _ => v) v = some u → H u) ∧ ∀ u, o.foldl (fun v o => match o with
        | .started _ _ _ => none
        | .runtime u => some u
        | _ => v) r = some u → K u := by
    intro o
    induction o with
    | nil => intro v r _ hv hr; exact ⟨hv, hr⟩
    | cons x o ih =>
      intro v r ho hv hr
      have hx := ho x List.mem_cons_self
      refine ih _ _ (fun y hy => ho y (List.mem_cons_of_mem _ hy)) ?_ ?_
      · intro u hu
        dsimp only at hu
        split at hu
        · cases hu
        · cases hu; exact hx
        · exact hv u hu
      · intro u hu
        dsimp only at hu
        split at hu
        · cases hu
        · cases hu; exact hx
        · exact hr u hu
  exact g o none none h nofun nofun

/-- C100, what a version stands for: whatever holds of every update the server ever sent (and of what torn writes of the runtime leave) holds of
what is in use at any time, over restarts and failures.  With `H u` = "`u` has the content the server gave to its version", a version in
a handshake stands for that content. -/
theorem C100_honest (H : Upd Cfg → Prop) (K : RtUpd → Prop) (es : List (Ev Cfg)) (he : ∀ e ∈ es, Sent H K e) (before after : List (Obs Cfg))
    (h : Sys.fresh.obs es = before ++ after) : (∀ u, confUse before = some u → H u) ∧ ∀ u, rtUse before = some u → K u := by
  refine uses_conf H K before ?_
  intro x hx
  exact run_stored H K es Sys.fresh ⟨nofun, nofun⟩ he x (by rw [h]; exact List.mem_append_left _ hx)

/-! #### Witness and concrete cases -/

def okEnv : StartEnv RtUpd := ⟨true, .ok, false, true, .ok, none, true, true⟩
def okR : REnv := ⟨.ok, .ok, .ok, none, false, .ok, true⟩
def startEv : Ev Nat := .start [(enc "app_id", enc "x")] .android "1.0" okEnv true true false .ok .ok false

/-- "a" is applied; "b" is refused. -/
def refused : List (Ev Nat) :=
  [startEv, .open_ true true, .data (some [(some (.handshake false), okR), (some (.configurationUpdate ⟨"a", some 1⟩), okR)]) .ok,
    .data (some [(some (.configurationUpdate ⟨"b", some 2⟩), { okR with out := .err })]) .ok]

/-- C100 fails for refusals: the nack for "b" says that "b" is the version applied last, while "a" is in use, which the next handshake says. -/
theorem C100_nack_violated :
    ∃ (es : List (Ev Nat)) (before : List (Obs Nat)), Proper es ∧
      Sys.fresh.obs es = before ++ [.ack (.config "b" (some "b"))] ∧ (confUse before).map (·.nonce) = some "a" ∧
      ((Sys.fresh.run (es ++ [.closed [] true, .wake])).step (.open_ true true)).2 =
        [.hello (Hs.write ⟨collect [(enc "app_id", enc "x")] .android "1.0", enc "a", [], []⟩)] := by
  refine ⟨refused, (Sys.fresh.obs refused).dropLast, ?_, ?_, ?_, ?_⟩
  · intro e he inner p sdk en a b d out w k hh
    simp only [refused, List.mem_cons, List.not_mem_nil, or_false] at he
    rcases he with rfl | rfl | rfl | rfl
    · cases hh; simp
    · cases hh
    · cases hh
    · cases hh
  · decide +kernel
  · decide +kernel
  · decide +kernel

/-- The first stream of the first process names no version; after an update and a restart the stream names it. -/
example : (Sys.fresh.obs [startEv, .open_ true true]).drop 1 =
    [.hello (Hs.write ⟨collect [(enc "app_id", enc "x")] .android "1.0", [], [], []⟩)] := by decide +kernel

example : ((Sys.fresh.run (refused ++ [.die, startEv])).step (.open_ true true)).2 =
    [.hello (Hs.write ⟨collect [(enc "app_id", enc "x")] .android "1.0", enc "a", [], []⟩)] := by decide +kernel

/-- The reason of a disconnect is told once. -/
example : ((Sys.fresh.run (refused ++ [.closed (enc "gone") true, .wake])).step (.open_ true true)).2 =
    [.hello (Hs.write ⟨collect [(enc "app_id", enc "x")] .android "1.0", enc "a", [], enc "gone"⟩)] ∧
    ((Sys.fresh.run (refused ++ [.closed (enc "gone") true, .wake, .open_ true true, .closed [] true, .wake])).step (.open_ true true)).2 =
    [.hello (Hs.write ⟨collect [(enc "app_id", enc "x")] .android "1.0", enc "a", [], []⟩)] := by
  constructor <;> decide +kernel

/-- Two answers are owed and given. -/
example : owed (Sys.fresh.obs refused) = [.config "a" none, .config "b" (some "b")] ∧
    acked (Sys.fresh.obs refused) = [.config "a" none, .config "b" (some "b")] := by
  constructor <;> decide +kernel

/-- The counters: a stream refused before its handshake, then one that has it. -/
example : (Sys.fresh.run [startEv, .open_ true true, .data (some [(some (.errorShutdown false []), okR)]) .ok, .wake, .open_ true true,
    .data (some [(some (.handshake true), okR)]) .ok, .closed [] true]).connectFailure = 1 := by decide +kernel

end Verif.Sync
