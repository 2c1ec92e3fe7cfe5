import Verif.Flow.Props

/-
C83: nothing gets stuck on the way from the call to the upload.
-/
namespace Verif.Flow

open Verif.Queue (Msg Chan Act Logger LState LEv PreBuf)
open Verif.Upload (CU CEv NLog UpResult Segment Uploaded)

theorem Sys.run_append (c : Cfg) (a b : List Ev) : ∀ s : Sys, s.run c (a ++ b) = (s.run c a).run c b := by
  induction a with
  | nil => intro s; rfl
  | cons e a ih => intro s; exact ih _

/-- Events of a process that goes on without trouble: it does not die, the file has room, uploads succeed. -/
def Smooth (e : Ev) : Prop :=
  e ≠ .die ∧ e ≠ .move false ∧ (∀ r, e = .up (.result r) → r = .success) ∧ e ≠ .up .abortGo ∧
  ∀ t, e ≠ .chan (.enqueue t)

/-- What reaching `t` from `s` without trouble preserves. -/
structure Reach (c : Cfg) (s t : Sys) : Prop where
  path : ∃ es, (∀ e ∈ es, Smooth e) ∧ t = s.run c es

theorem Reach.refl (c : Cfg) (s : Sys) : Reach c s s := ⟨[], by simp, rfl⟩

theorem Reach.trans {c : Cfg} {s t u : Sys} (h1 : Reach c s t) (h2 : Reach c t u) : Reach c s u := by
  obtain ⟨es, a, rfl⟩ := h1.path
  obtain ⟨es', b, rfl⟩ := h2.path
  refine ⟨es ++ es', ?_, (Sys.run_append c es es' s).symm⟩
  intro e he
  rcases List.mem_append.mp he with h | h
  · exact a e h
  · exact b e h

theorem Reach.one {c : Cfg} {s : Sys} (e : Ev) (he : Smooth e) : Reach c s (s.step c e) :=
  ⟨[e], by simpa using he, rfl⟩

theorem Reach.inv {c : Cfg} (hc : c.Sane) {s t : Sys} (h : Reach c s t) (hs : s.Inv c) : t.Inv c := by
  obtain ⟨es, _, rfl⟩ := h.path
  exact Sys.run_inv hc es hs

theorem smooth_accepted (c : Cfg) (s : Sys) (e : Ev) (he : Smooth e) : (s.step c e).accepted = s.accepted := by
  obtain ⟨h1, _, _, _, h5⟩ := he
  cases e with
  | chan a =>
    simp only [Sys.step]
    split
    · rfl
    · show s.past ++ (s.chan.step a).1.accepted = s.past ++ s.chan.accepted
      congr 1
      cases a with
      | enqueue t => exact absurd rfl (h5 t)
      | reserve t m => simp only [Chan.step]; repeat' split
                       all_goals rfl
      | void t => simp only [Chan.step]; repeat' split
                  all_goals rfl
      | recv => simp only [Chan.step]; repeat' split
                all_goals rfl
      | release => simp only [Chan.step]; repeat' split
                   all_goals rfl
      | close => rfl
  | handle => simp only [Sys.step]; repeat' split
              all_goals rfl
  | config => rfl
  | move ok => simp only [Sys.step]; repeat' split
               all_goals rfl
  | up e => cases e <;> rfl
  | die => exact absurd rfl h1

theorem Reach.accepted {c : Cfg} {s t : Sys} (h : Reach c s t) : t.accepted = s.accepted := by
  obtain ⟨es, a, rfl⟩ := h.path
  clear h
  induction es generalizing s with
  | nil => rfl
  | cons e es ih =>
    show ((s.step c e).run c es).accepted = _
    rw [ih fun x hx => a x (List.mem_cons_of_mem _ hx)]
    exact smooth_accepted c s e (a e List.mem_cons_self)

theorem smooth_past (c : Cfg) (s : Sys) (e : Ev) (he : Smooth e) : (s.step c e).past = s.past := by
  have := he.1
  cases e with
  | die => exact absurd rfl this
  | chan x => simp only [Sys.step]; split <;> rfl
  | handle => simp only [Sys.step]; repeat' split
              all_goals rfl
  | config => rfl
  | move ok => simp only [Sys.step]; repeat' split
               all_goals rfl
  | up e => cases e <;> rfl

theorem Reach.past {c : Cfg} {s t : Sys} (h : Reach c s t) : t.past = s.past := by
  obtain ⟨es, a, rfl⟩ := h.path
  clear h
  induction es generalizing s with
  | nil => rfl
  | cons e es ih =>
    show ((s.step c e).run c es).past = _
    rw [ih fun x hx => a x (List.mem_cons_of_mem _ hx)]
    exact smooth_past c s e (a e List.mem_cons_self)

theorem Reach.chan_accepted {c : Cfg} {s t : Sys} (h : Reach c s t) : t.chan.accepted = s.chan.accepted := by
  have h1 := h.accepted
  unfold Sys.accepted at h1
  rw [h.past] at h1
  exact List.append_cancel_left h1

/-- Reasons a smooth continuation can add. -/
def pipelineOnly (s t : Sys) : Prop := ∃ l : List Msg, t.lost = s.lost ++ l.map fun m => (Reason.pipeline, m)

theorem pipelineOnly.refl (s : Sys) : pipelineOnly s s := ⟨[], by simp⟩

theorem pipelineOnly.trans {s t u : Sys} (h1 : pipelineOnly s t) (h2 : pipelineOnly t u) : pipelineOnly s u := by
  obtain ⟨l, e1⟩ := h1
  obtain ⟨m, e2⟩ := h2
  exact ⟨l ++ m, by rw [e2, e1]; simp⟩

theorem logger_config_init (l : Logger) : (l.step .config).state = .initialized := by
  cases hs : l.state <;> simp [Logger.step, hs]

/-- One more log is handled. -/
theorem handle_one {c : Cfg} (hc : c.Sane) {s : Sys} (h : s.Inv c) (hi : s.logger.state = .initialized)
    (hlt : s.taken < s.chan.accepted.length) :
    ∃ t, Reach c s t ∧ pipelineOnly s t ∧ t.logger.state = .initialized ∧ t.taken = s.taken + 1 ∧ t.cu = s.cu := by
  -- the receiver gives the memory back
  have hrel : ∃ u, Reach c s u ∧ u.chan.held = none ∧ u.lost = s.lost ∧ u.logger = s.logger ∧ u.taken = s.taken ∧ u.cu = s.cu := by
    cases hh : s.chan.held with
    | none => exact ⟨s, .refl c s, hh, rfl, rfl, rfl, rfl⟩
    | some m =>
      refine ⟨_, Reach.one (.chan .release) ⟨by simp, by simp, by simp, by simp, by simp⟩, ?_, ?_⟩
      · have hb := (h.chan.step .release).2
        simp only [Sys.step, reduceCtorEq, false_and, if_false]
        simp only [Chan.step, hh] at hb ⊢
        split
        · rename_i hu; simp [hu] at hb
        · rfl
      · simp [Sys.step]
  obtain ⟨u, r1, hheld, e1, e2, e3, e4⟩ := hrel
  have hu : u.Inv c := r1.inv hc h
  have hlen : u.taken < u.chan.accepted.length := by rw [r1.chan_accepted, e3]; exact hlt
  -- it receives, unless it has received
  have hrec : ∃ v, Reach c u v ∧ v.chan.held = none ∧ v.lost = u.lost ∧ v.logger = u.logger ∧ v.taken = u.taken ∧ v.cu = u.cu ∧
      v.taken < v.chan.received.length := by
    by_cases hr : u.taken < u.chan.received.length
    · exact ⟨u, .refl c u, hheld, rfl, rfl, rfl, rfl, hr⟩
    · have hle := hu.taken
      have heq : u.taken = u.chan.received.length := by omega
      cases hq : u.chan.queue with
      | nil =>
        have := hu.chan.fifo
        rw [hq, List.append_nil] at this
        rw [← this] at hlen; omega
      | cons m q =>
        let v1 := u.step c (.chan .recv)
        have hv1 : v1 = { u with chan := { u.chan with queue := q, held := some m, received := u.chan.received ++ [m] } } := by
          simp only [v1, Sys.step, heq]
          simp [Chan.step, hheld, hq]
        have hi1 : v1.Inv c := hu.step hc _
        let v2 := v1.step c (.chan .release)
        have hb := (hi1.chan.step .release).2
        have hv2 : v2.chan.held = none ∧ v2.chan.received = v1.chan.received ∧ v2.lost = v1.lost ∧ v2.logger = v1.logger ∧
            v2.taken = v1.taken ∧ v2.cu = v1.cu := by
          have hh1 : v1.chan.held = some m := by rw [hv1]
          simp only [v2, Sys.step, reduceCtorEq, false_and, if_false]
          simp only [Chan.step, hh1] at hb ⊢
          split
          · rename_i hx; simp [hx] at hb
          · exact ⟨rfl, rfl, trivial, trivial, trivial, trivial⟩
        obtain ⟨b1, b2, b3, b4, b5, b6⟩ := hv2
        refine ⟨v2, (Reach.one (.chan .recv) ⟨by simp, by simp, by simp, by simp, by simp⟩).trans
          (Reach.one (.chan .release) ⟨by simp, by simp, by simp, by simp, by simp⟩), b1, ?_, ?_, ?_, ?_, ?_⟩
        · rw [b3, hv1]
        · rw [b4, hv1]
        · rw [b5, hv1]
        · rw [b6, hv1]
        · rw [b5, b2, hv1]; simp [heq]
  obtain ⟨v, r2, hh, f1, f2, f3, f4, hlt2⟩ := hrec
  have hvi : v.logger.state = .initialized := by rw [f2, e2]; exact hi
  have hm : v.chan.received[v.taken]? = some v.chan.received[v.taken] := List.getElem?_eq_getElem hlt2
  have hstep : v.step c .handle = Sys.pass c { v with taken := v.taken + 1 } (v.logger.step (.log v.chan.received[v.taken])) := by
    simp only [Sys.step, hh, hm]
    simp [refused, hvi]
  refine ⟨v.step c .handle, (r1.trans r2).trans (Reach.one .handle ⟨by simp, by simp, by simp, by simp, by simp⟩), ?_, ?_, ?_, ?_⟩
  · rw [hstep]
    refine ⟨(pipeAll c v.piped ((v.logger.step (.log v.chan.received[v.taken])).processed.drop v.logger.processed.length)).2, ?_⟩
    show v.lost ++ _ = _
    rw [f1, e1]
  · rw [hstep]
    show (v.logger.step (.log _)).state = _
    simp [Logger.step, hvi]
  · rw [hstep]
    show v.taken + 1 = _
    rw [f3, e3]
  · rw [hstep]
    show v.cu = _
    rw [f4, e4]

theorem handle_all {c : Cfg} (hc : c.Sane) : ∀ (n : Nat) {s : Sys}, s.Inv c → s.logger.state = .initialized →
    s.chan.accepted.length = s.taken + n →
    ∃ t, Reach c s t ∧ pipelineOnly s t ∧ t.logger.state = .initialized ∧ t.taken = t.chan.accepted.length ∧ t.cu = s.cu
  | 0, s, _, hi, hn => ⟨s, .refl c s, .refl s, hi, by omega, rfl⟩
  | n + 1, s, h, hi, hn => by
    obtain ⟨t, r, pl, ti, tt, tc⟩ := handle_one hc h hi (by omega)
    obtain ⟨u, r2, pl2, ui, ut, uc⟩ := handle_all hc n (r.inv hc h) ti (by rw [r.chan_accepted, tt]; omega)
    exact ⟨u, r.trans r2, pl.trans pl2, ui, ut, by rw [uc, tc]⟩

/-- The records in memory are moved to the file. -/
theorem move_all (c : Cfg) : ∀ (n : Nat) {s : Sys}, s.vol.length = n →
    ∃ t, Reach c s t ∧ t.lost = s.lost ∧ t.logger = s.logger ∧ t.taken = s.taken ∧ t.vol = [] ∧ t.cu.phase = s.cu.phase ∧
      t.cu.acked = s.cu.acked ∧ t.cu.finished = s.cu.finished ∧ t.chan = s.chan
  | 0, s, hn => ⟨s, .refl c s, rfl, rfl, rfl, List.length_eq_zero_iff.mp hn, rfl, rfl, rfl, rfl⟩
  | n + 1, s, hn => by
    cases hv : s.vol with
    | nil => simp [hv] at hn
    | cons r rs =>
      have hst : s.step c (.move true) = { s with vol := rs, disk := s.disk ++ [r], cu := s.cu.step (.write (c.enc r)) } := by
        simp [Sys.step, hv]
      obtain ⟨t, rt, a1, a2, a3, a4, a5, a6, a7, a8⟩ := move_all c n (s := s.step c (.move true)) (by rw [hst]; simp [hv] at hn; exact hn)
      refine ⟨t, (Reach.one (.move true) ⟨by simp, by simp, by simp, by simp, by simp⟩).trans rt, ?_, ?_, ?_, a4, ?_, ?_, ?_, ?_⟩
      · rw [a1, hst]
      · rw [a2, hst]
      · rw [a3, hst]
      · rw [a5, hst]; rfl
      · rw [a6, hst]; rfl
      · rw [a7, hst]; rfl
      · rw [a8, hst]

/-- Uploader steps that the flow performs as they are. -/
def cuStep (e : CEv) : Prop := (∀ d, e ≠ .write d) ∧ e ≠ .kill ∧ e ≠ .abortGo ∧ ∀ r, e = .result r → r = .success

theorem reach_up (c : Cfg) (es : List CEv) : ∀ s : Sys, (∀ e ∈ es, cuStep e) → Reach c s { s with cu := s.cu.run es } := by
  induction es with
  | nil => intro s _; exact .refl c s
  | cons e es ih =>
    intro s h
    have he := h e List.mem_cons_self
    have h1 : s.step c (.up e) = { s with cu := s.cu.step e } := by
      cases e with
      | write d => exact absurd rfl (he.1 d)
      | kill => exact absurd rfl he.2.1
      | _ => rfl
    have h2 := ih { s with cu := s.cu.step e } fun x hx => h x (List.mem_cons_of_mem _ hx)
    refine Reach.trans (t := s.step c (.up e)) (Reach.one _ ⟨by simp, by simp, ?_, ?_, by simp⟩) (by rw [h1]; exact h2)
    · intro r hr; cases hr; exact he.2.2.2 r rfl
    · intro hr; cases hr; exact he.2.2.1 rfl

theorem advance_all : ∀ (k : Nat) (s : CU), s.phase = .acking k →
    ∃ n, (s.run (List.replicate n .advance)).phase = .collecting ∧ (s.run (List.replicate n .advance)).written = s.written ∧
      (s.run (List.replicate n .advance)).acked = s.acked + k ∧ (s.run (List.replicate n .advance)).finished = s.finished
  | 0, s, hp => ⟨1, by simp [CU.run, CU.step, hp]⟩
  | k + 1, s, hp => by
    by_cases hk : k = 0
    · exact ⟨1, by simp [CU.run, CU.step, hp, hk]⟩
    · have h1 : s.step .advance = { s with acked := s.acked + 1, phase := .acking k } := by simp [CU.step, hp, hk]
      obtain ⟨n, a1, a2, a3, a4⟩ := advance_all k (s.step .advance) (by rw [h1])
      refine ⟨n + 1, ?_⟩
      have e : s.run (List.replicate (n + 1) .advance) = (s.step .advance).run (List.replicate n .advance) := rfl
      rw [e]
      refine ⟨a1, by rw [a2, h1], by rw [a3, h1]; show s.acked + 1 + k = _; omega, by rw [a4, h1]⟩

/-- The uploader can always be brought to a fresh start at the oldest log of the file. -/
theorem restart (s : CU) : ∃ es, (∀ e ∈ es, cuStep e) ∧ (s.run es).phase = .collecting ∧ (s.run es).pos = (s.run es).acked ∧
    (s.run es).batch = [] ∧ (s.run es).written = s.written ∧ (s.run es).finished = s.finished ∧
    (s.run es).acked = s.acked + pending s := by
  have hcs : ∀ e : CEv, e ∈ [CEv.start, .shut, .stop, .abortStop, .advance] → cuStep e := by
    intro e he
    simp only [List.mem_cons, List.not_mem_nil, or_false] at he
    rcases he with rfl | rfl | rfl | rfl | rfl <;> exact ⟨by simp, by simp, by simp, by simp⟩
  have hcol : ∀ u : CU, u.phase = .collecting → (u.run [.shut, .stop, .start]).phase = .collecting ∧
      (u.run [.shut, .stop, .start]).pos = (u.run [.shut, .stop, .start]).acked ∧ (u.run [.shut, .stop, .start]).batch = [] ∧
      (u.run [.shut, .stop, .start]).written = u.written ∧ (u.run [.shut, .stop, .start]).finished = u.finished ∧
      (u.run [.shut, .stop, .start]).acked = u.acked := by
    intro u hu; simp [CU.run, CU.step, hu]
  cases hp : s.phase with
  | stopped =>
    refine ⟨[.start], fun e he => hcs e (by simp_all), ?_⟩
    simp [CU.run, CU.step, hp, pending]
  | collecting =>
    refine ⟨[.shut, .stop, .start], fun e he => hcs e (by simp_all; tauto), ?_⟩
    simpa [pending, hp] using hcol s hp
  | uploading logs =>
    refine ⟨[.shut, .abortStop, .start], fun e he => hcs e (by simp_all; tauto), ?_⟩
    simp [CU.run, CU.step, hp, pending]
  | acking k =>
    obtain ⟨n, a1, a2, a3, a4⟩ := advance_all k s hp
    obtain ⟨b1, b2, b3, b4, b5, b6⟩ := hcol _ a1
    have e : s.run (List.replicate n .advance ++ [.shut, .stop, .start]) = (s.run (List.replicate n .advance)).run [.shut, .stop, .start] := by
      simp [CU.run, List.foldl_append]
    refine ⟨List.replicate n .advance ++ [.shut, .stop, .start], ?_, ?_⟩
    · intro e he
      rcases List.mem_append.mp he with h | h
      · rw [List.eq_of_mem_replicate h]; exact hcs _ (by simp)
      · exact hcs e (by simp_all; tauto)
    · rw [e]
      exact ⟨b1, b2, b3, by rw [b4, a2], by rw [b5, a4], by rw [b6, a3]; simp [pending, hp]⟩

/-- One log is uploaded on its own. -/
theorem upload_one (s : CU) (hp : s.phase = .collecting) (h1 : s.pos = s.acked) (h2 : s.batch = []) {d : List Nat}
    (hd : s.written[s.acked]? = some d) :
    let t := s.run [.read ⟨1, 1⟩, .result .success, .advance]
    t.phase = .collecting ∧ t.pos = t.acked ∧ t.batch = [] ∧ t.acked = s.acked + 1 ∧ t.written = s.written ∧
    t.finished = s.finished ++ [([(s.acked, d)], .success)] := by
  have hr : s.step (.read ⟨1, 1⟩) = { s with batch := [], pos := s.pos + 1, armed := false, phase := .uploading [(s.pos, d)] } := by
    simp only [CU.step, hp, h1, hd, h2, List.nil_append, CU.check, CU.limit]
    simp [CU.flush]
  simp only [CU.run, List.foldl_cons, List.foldl_nil, hr]
  simp [CU.step, h1]

theorem upload_all : ∀ (n : Nat) (s : CU), s.phase = .collecting → s.pos = s.acked → s.batch = [] →
    s.written.length = s.acked + n →
    ∃ es, (∀ e ∈ es, cuStep e) ∧ (s.run es).written = s.written ∧ (s.run es).acked = s.written.length ∧
      (∃ more, (s.run es).finished = s.finished ++ more) ∧ (s.run es).phase = .collecting ∧
      ∀ i, s.acked ≤ i → i < s.written.length → Uploaded (· = .success) (s.run es) i
  | 0, s, hp, _, _, hn => ⟨[], by simp, rfl, by show s.acked = _; omega, ⟨[], by simp [CU.run]⟩, hp, fun i h1 h2 => by omega⟩
  | n + 1, s, hp, h1, h2, hn => by
    have hlt : s.acked < s.written.length := by omega
    have hd : s.written[s.acked]? = some s.written[s.acked] := List.getElem?_eq_getElem hlt
    obtain ⟨b1, b2, b3, b4, b5, b6⟩ := upload_one s hp h1 h2 hd
    obtain ⟨es, c1, c2, c3, ⟨more, c4⟩, c5, c6⟩ := upload_all n _ b1 b2 b3 (by rw [b5, b4]; omega)
    have e : s.run ([.read ⟨1, 1⟩, .result .success, .advance] ++ es) = (s.run [.read ⟨1, 1⟩, .result .success, .advance]).run es := by
      simp [CU.run, List.foldl_append]
    refine ⟨[.read ⟨1, 1⟩, .result .success, .advance] ++ es, ?_, ?_, ?_, ?_, ?_, ?_⟩
    · intro x hx
      rcases List.mem_append.mp hx with h | h
      · simp only [List.mem_cons, List.not_mem_nil, or_false] at h
        rcases h with rfl | rfl | rfl <;> exact ⟨by simp, by simp, by simp, by simp⟩
      · exact c1 x h
    · rw [e, c2, b5]
    · rw [e, c3, b5]
    · rw [e, c4, b6]; exact ⟨_, List.append_assoc _ _ _⟩
    · rw [e]; exact c5
    · intro i hi1 hi2
      rw [e]
      by_cases hi : i = s.acked
      · subst hi
        refine ⟨([(s.acked, s.written[s.acked])], .success), ?_, rfl, s.written[s.acked], by simp, ?_⟩
        · rw [c4, b6]; simp
        · rw [c2, b5]; exact hd
      · exact c6 i (by rw [b4]; omega) (by rw [b5]; exact hi2)

/-- C83: nothing gets stuck.  However a state was reached, the program can go on without another death of the process, without a record
refused by the file and without new logs, to a state where nothing accepted is left in memory or in the file: every log is lost for a
reason it was lost for before, was left out by the pipeline, was removed from the file or in an upload that returned before, or has been
uploaded with success. -/
theorem C83_progress (c : Cfg) (hc : c.Sane) (es : List Ev) :
    let s := (Sys.init c).run c es
    ∃ es', (∀ e ∈ es', Smooth e) ∧
      let t := (Sys.init c).run c (es ++ es')
      t.accepted = s.accepted ∧ t.inMemory = [] ∧ t.cu.acked = t.disk.length ∧
      (∃ l : List Msg, t.lost = s.lost ++ l.map fun m => (Reason.pipeline, m)) ∧
      ∀ i, s.cu.acked + pending s.cu ≤ i → i < t.disk.length → Uploaded (· = .success) t.cu i := by
  intro s
  have h : s.Inv c := Sys.run_inv hc es (Sys.inv_init c)
  -- the configuration arrives
  have r1 : Reach c s (s.step c .config) := Reach.one .config ⟨by simp, by simp, by simp, by simp, by simp⟩
  have p1 : pipelineOnly s (s.step c .config) := ⟨_, rfl⟩
  have i1 : (s.step c .config).Inv c := r1.inv hc h
  -- the log task handles everything
  obtain ⟨u, r2, p2, ui, ut, uc⟩ := handle_all hc ((s.step c .config).chan.accepted.length - (s.step c .config).taken) i1
    (logger_config_init s.logger) (by have := i1.taken_accepted; omega)
  -- the records are moved
  obtain ⟨v, r3, a1, a2, a3, a4, a5, a6, a7, a8⟩ := move_all c u.vol.length (s := u) rfl
  -- the uploader starts anew and uploads
  obtain ⟨ce, ce1, d1, d2, d3, d4, d5, d6⟩ := restart v.cu
  have hwf : v.cu.Wf := by
    have hv : Reach c s v := (r1.trans r2).trans r3
    obtain ⟨es2, _, e2⟩ := hv.path
    rw [e2, Sys.cu_run]
    have : s.cu.Wf := by
      show ((Sys.init c).run c es).cu.Wf
      rw [Sys.run_cu_init]; exact Verif.Upload.CU.wf_run _ _ Verif.Upload.CU.wf_init
    exact Verif.Upload.CU.wf_run _ _ this
  have hwf2 : (v.cu.run ce).Wf := Verif.Upload.CU.wf_run _ _ hwf
  have hle : (v.cu.run ce).acked ≤ (v.cu.run ce).written.length := Nat.le_trans hwf2.pos_le hwf2.le
  obtain ⟨cf, cf1, f1, f2, f3, f4, f5⟩ := upload_all ((v.cu.run ce).written.length - (v.cu.run ce).acked) (v.cu.run ce) d1 d2 d3 (by omega)
  have r4 : Reach c v { v with cu := v.cu.run (ce ++ cf) } := reach_up c (ce ++ cf) v (by
    intro e he
    rcases List.mem_append.mp he with h | h
    · exact ce1 e h
    · exact cf1 e h)
  have happ : v.cu.run (ce ++ cf) = (v.cu.run ce).run cf := by simp [CU.run, List.foldl_append]
  have rall := ((r1.trans r2).trans r3).trans r4
  have it := rall.inv hc h
  have hu : u.Inv c := r2.inv hc i1
  obtain ⟨es', sm, hrun⟩ := rall.path
  have ht : (Sys.init c).run c (es ++ es') = { v with cu := v.cu.run (ce ++ cf) } := by
    rw [Sys.run_append]; exact hrun.symm
  refine ⟨es', sm, ?_⟩
  simp only
  rw [ht]
  have hdisk : (v.cu.run ce).written.length = v.disk.length := by
    have := it.written
    simp only [happ, f1] at this
    rw [this, List.length_map]
  refine ⟨rall.accepted, ?_, ?_, ?_, ?_⟩
  · have hlog : v.logger.state = .initialized := by rw [a2]; exact ui
    have htk : v.taken = v.chan.accepted.length := by rw [a3, a8]; exact ut
    have hvi : v.Inv c := r3.inv hc hu
    have hq : v.chan.received.drop v.taken = [] ∧ v.chan.queue = [] := by
      have h1 := hvi.chan.fifo
      have h2 := hvi.taken
      have h3 : v.chan.received.length + v.chan.queue.length = v.chan.accepted.length := by rw [← h1, List.length_append]
      constructor
      · rw [List.drop_eq_nil_iff]; omega
      · exact List.length_eq_zero_iff.mp (by omega)
    simp [Sys.inMemory, a4, waiting, hlog, hq.1, hq.2]
  · show (v.cu.run (ce ++ cf)).acked = v.disk.length
    rw [happ, f2, hdisk]
  · have : pipelineOnly s v := (p1.trans p2).trans ⟨[], by rw [a1]; simp⟩
    exact this
  · intro i hi1 hi2
    show Uploaded _ (v.cu.run (ce ++ cf)) i
    rw [happ]
    refine f5 i ?_ (by rw [hdisk]; exact hi2)
    rw [d6, a6, uc]
    have : pending v.cu = pending s.cu := by
      unfold pending; rw [a5, uc]; rfl
    rw [this]; exact hi1

end Verif.Flow
