import Verif.Flow.Model
import Verif.Queue.Props
import Verif.Log.PipeProps
import Verif.Upload.ContinuousProps

/-
C83: from the call to the upload.
-/
namespace Verif.Flow

open Verif.Queue (Msg Chan Act Logger LState LEv PreBuf)
open Verif.Upload (CU CEv NLog UpResult Segment Uploaded)
open Verif.Pipe (Env EngineResult Step process writes writeAll synthetic finishBlocking)
open Verif.Mgr (Id)

/-! ### The pipeline writes a log to a buffer at most once -/

/-- What the rest of the program ensures of the inputs: the buffers of a log are a set, and the buffer considered is one of the
configured buffers. -/
def Cfg.Sane (c : Cfg) : Prop := ∀ n i, c.oracle n = some i → i.dest.Nodup ∧
  (c.buf ∈ i.env.producers.continuous ∨ c.buf ∈ i.env.producers.trigger)

theorem writeAll_sublist (w : Id → Verif.Pipe.W) : ∀ l : List Id, (writeAll w l).1.Sublist l
  | [] => .slnil
  | b :: bs => by
    unfold writeAll
    split
    · exact (writeAll_sublist w bs).cons_cons b
    · exact (writeAll_sublist w bs).cons b
    · exact (writeAll_sublist w bs).cons b
    · exact List.nil_sublist _
    · exact List.nil_sublist _

theorem copy_wrote (b : Id) (l : List Id) : (l.map Step.wrote).filterMap (copy b) = (l.filter (· = b)).map fun _ => false := by
  induction l with
  | nil => rfl
  | cons x l ih =>
    by_cases h : x = b <;> simp [copy, h, ih]

theorem copy_finish (b : Id) (e : Env) (m : List Id) : (finishBlocking e m).1.filterMap (copy b) = [] := by
  have h1 : ∀ l : List Verif.Mgr.Handle, (l.map Step.flushed).filterMap (copy b) = [] := by
    intro l; induction l with
    | nil => rfl
    | cons _ _ ih => simpa [copy] using ih
  have h2 : ([Step.statsFlushed] : List Step).filterMap (copy b) = [] := rfl
  have h3 : ([] : List Step).filterMap (copy b) = [] := rfl
  unfold finishBlocking
  cases e.stats with
  | none =>
    simp only
    repeat' split
    all_goals simp only [List.filterMap_append, h1, h2, h3, List.append_nil]
  | some v =>
    cases v <;> simp only
    all_goals repeat' split
    all_goals simp only [List.filterMap_append, h1, h2, h3, List.append_nil]

theorem copies_writes (b : Id) (i : PipeIn) :
    copies b (some i) = (writes i.env i.matching i.engine i.blocking).1.filterMap (copy b) := by
  simp only [copies, process]
  split
  · split
    · simp [List.filterMap_append, copy_finish, copy]
    · rfl
  · split <;> simp [List.filterMap_append, copy]

theorem disjoint_mem {a l : List Id} (h : Verif.Pipe.disjoint a l = true) {x : Id} (hx : x ∈ a) : x ∉ l := by
  have := (List.all_eq_true.mp h) x hx
  simpa using this

theorem synthetic_outside {p : Verif.Pipe.Producers} {r : EngineResult} {b : Id} (h : synthetic p r = some b) {x : Id}
    (hx : x ∈ p.continuous ∨ x ∈ p.trigger) : x ∉ r.dest := by
  unfold synthetic at h
  split at h
  · cases h
  · simp only at h
    split at h
    · cases h
    · rename_i h2
      simp only [Bool.or_eq_true, Bool.not_eq_true', not_or, Bool.not_eq_false] at h2
      intro hd
      rcases hx with hx | hx
      · exact disjoint_mem h2.1 hd hx
      · exact disjoint_mem h2.2 hd hx

theorem filter_eq_le {l : List Id} (h : l.Nodup) (b : Id) : (l.filter (· = b)).length ≤ 1 := by
  have h1 : (l.filter (· = b)).Nodup := h.filter _
  match hl : l.filter (· = b) with
  | [] => simp
  | [_] => simp
  | x :: y :: r =>
    rw [hl] at h1
    have hx : x ∈ l.filter (· = b) := by rw [hl]; simp
    have hy : y ∈ l.filter (· = b) := by rw [hl]; simp
    have : x = y := by
      have := (List.mem_filter.mp hx).2; have := (List.mem_filter.mp hy).2; simp_all
    subst this
    simp at h1

/-- At most one copy of a log is written to a configured buffer. -/
theorem copies_le (b : Id) (i : PipeIn) (hd : i.dest.Nodup)
    (hb : b ∈ i.env.producers.continuous ∨ b ∈ i.env.producers.trigger) : (copies b (some i)).length ≤ 1 := by
  rw [copies_writes]
  unfold writes
  cases he : i.engine with
  | none =>
    simp only
    rw [copy_wrote, List.length_map]
    refine filter_eq_le ((writeAll_sublist _ _).nodup ?_) b
    simpa [PipeIn.dest, he] using hd
  | some r =>
    have hr : r.dest.Nodup := by simpa [PipeIn.dest, he] using hd
    have h1 := filter_eq_le ((writeAll_sublist i.env.w r.dest).nodup hr) b
    have hpers : ([Step.persist i.blocking] : List Step).filterMap (copy b) = [] := rfl
    simp only
    split
    · split
      · rename_i x hs
        have hout := synthetic_outside hs hb
        have h0 : (writeAll i.env.w r.dest).1.filter (· = b) = [] := by
          rw [List.filter_eq_nil_iff]
          intro y hy
          have := (writeAll_sublist i.env.w r.dest).subset hy
          simp only [decide_eq_true_eq]
          rintro rfl
          exact hout this
        simp only [List.filterMap_append, copy_wrote, h0]
        split
        · by_cases hxb : x = b
          · simp [List.filterMap_cons, hpers, copy, hxb]
          · simp [List.filterMap_cons, hpers, copy, hxb]
        · simp [hpers]
      · simp only [List.filterMap_append, copy_wrote, hpers, List.append_nil, List.length_map]; exact h1
    · simp only [copy_wrote, List.length_map]; exact h1

theorem Cfg.Sane.copies {c : Cfg} (h : c.Sane) (n : Nat) : (copies c.buf (c.oracle n)).length ≤ 1 := by
  cases ho : c.oracle n with
  | none => simp [Flow.copies]
  | some i => exact copies_le c.buf i (h n i ho).1 (h n i ho).2

theorem pipeAll_sublist {c : Cfg} (h : c.Sane) : ∀ (ms : List Msg) (n : Nat), ((pipeAll c n ms).1.map (·.1)).Sublist ms
  | [], _ => .slnil
  | m :: ms, n => by
    have ih := pipeAll_sublist h ms (n + 1)
    have hc := h.copies n
    unfold pipeAll
    simp only
    split
    · exact ih.cons m
    · rename_i k hk
      match hx : copies c.buf (c.oracle n) with
      | [] => exact absurd hx hk
      | [x] => simpa using ih
      | x :: y :: r => rw [hx] at hc; simp at hc

theorem pipeAll_perm {c : Cfg} (h : c.Sane) : ∀ (ms : List Msg) (n : Nat),
    ms.Perm ((pipeAll c n ms).2 ++ (pipeAll c n ms).1.map (·.1))
  | [], _ => .refl _
  | m :: ms, n => by
    have ih := pipeAll_perm h ms (n + 1)
    have hc := h.copies n
    unfold pipeAll
    simp only
    split
    · exact ih.cons m
    · rename_i k hk
      match hx : copies c.buf (c.oracle n) with
      | [] => exact absurd hx hk
      | [x] =>
        refine (ih.cons m).trans ?_
        simpa using List.perm_middle.symm
      | x :: y :: r => rw [hx] at hc; simp at hc

/-! ### The invariant -/

/-- The logs the log task has handled, in the order of acceptance. -/
def Sys.handled (s : Sys) : List Msg := s.past ++ s.chan.accepted.take s.taken

/-- The logs past the channel and not lost, oldest first. -/
def Sys.inside (s : Sys) : List Msg := s.disk.map (·.1) ++ s.vol.map (·.1) ++ waiting s.logger

structure Sys.Inv (c : Cfg) (s : Sys) : Prop where
  chan : s.chan.Inv
  taken : s.taken ≤ s.chan.received.length
  written : s.cu.written = s.disk.map c.enc
  order : s.inside.Sublist s.handled
  perm : s.handled.Perm (s.lost.map (·.2) ++ s.inside)

theorem Sys.inv_init (c : Cfg) : (Sys.init c).Inv c where
  chan := Chan.inv_init _ _
  taken := Nat.le_refl _
  written := rfl
  order := by simp [Sys.inside, Sys.init, waiting, Logger.init]
  perm := by simp [Sys.inside, Sys.handled, Sys.init, waiting, Logger.init, Chan.init]

theorem accepted_step (s : Chan) (a : Act) : (∃ l, (s.step a).1.accepted = s.accepted ++ l) ∧
    ∃ l, (s.step a).1.received = s.received ++ l := by
  cases a with
  | reserve t m =>
    simp only [Chan.step]
    split
    · exact ⟨⟨[], by simp⟩, ⟨[], by simp⟩⟩
    · split <;> exact ⟨⟨[], by simp⟩, ⟨[], by simp⟩⟩
  | enqueue t =>
    simp only [Chan.step]
    split
    · split
      · exact ⟨⟨[], by simp⟩, ⟨[], by simp⟩⟩
      · split
        · exact ⟨⟨[], by simp⟩, ⟨[], by simp⟩⟩
        · exact ⟨⟨_, rfl⟩, ⟨[], by simp⟩⟩
    · exact ⟨⟨[], by simp⟩, ⟨[], by simp⟩⟩
  | void t =>
    simp only [Chan.step]
    split
    · split <;> exact ⟨⟨[], by simp⟩, ⟨[], by simp⟩⟩
    · exact ⟨⟨[], by simp⟩, ⟨[], by simp⟩⟩
  | recv =>
    simp only [Chan.step]
    split
    · exact ⟨⟨[], by simp⟩, ⟨_, rfl⟩⟩
    · exact ⟨⟨[], by simp⟩, ⟨[], by simp⟩⟩
  | release =>
    simp only [Chan.step]
    split
    · split <;> exact ⟨⟨[], by simp⟩, ⟨[], by simp⟩⟩
    · exact ⟨⟨[], by simp⟩, ⟨[], by simp⟩⟩
  | close => exact ⟨⟨[], by simp [Chan.step]⟩, ⟨[], by simp [Chan.step]⟩⟩

theorem Sys.Inv.taken_accepted {c : Cfg} {s : Sys} (h : s.Inv c) : s.taken ≤ s.chan.accepted.length := by
  have := h.taken
  rw [← h.chan.fifo, List.length_append]; omega

/-- Logs handled one after the other go through the pipeline or wait. -/
theorem Sys.Inv.pass {c : Cfg} (hc : c.Sane) {s : Sys} {l : Logger} {new : List Msg}
    (hch : s.chan.Inv) (ht : s.taken ≤ s.chan.received.length) (hw : s.cu.written = s.disk.map c.enc)
    (hp : l.processed = s.logger.processed ++ new)
    (hord : (s.disk.map (·.1) ++ s.vol.map (·.1) ++ (new ++ waiting l)).Sublist s.handled)
    (hperm : s.handled.Perm (s.lost.map (·.2) ++ (s.disk.map (·.1) ++ s.vol.map (·.1) ++ (new ++ waiting l)))) :
    (s.pass c l).Inv c := by
  have hnew : l.processed.drop s.logger.processed.length = new := by rw [hp]; simp
  have hsub := pipeAll_sublist hc new s.piped
  have hpp := pipeAll_perm hc new s.piped
  refine ⟨hch, ht, hw, ?_, ?_⟩
  · show (s.disk.map (·.1) ++ (s.vol ++ (pipeAll c s.piped _).1).map (·.1) ++ waiting l).Sublist s.handled
    rw [hnew]
    refine List.Sublist.trans ?_ hord
    rw [List.map_append, List.append_assoc, List.append_assoc, List.append_assoc]
    exact ((hsub.append (List.Sublist.refl _)).append_left _).append_left _
  · show s.handled.Perm ((s.lost ++ (pipeAll c s.piped _).2.map fun m => (Reason.pipeline, m)).map (·.2) ++
      (s.disk.map (·.1) ++ (s.vol ++ (pipeAll c s.piped _).1).map (·.1) ++ waiting l))
    rw [hnew]
    refine hperm.trans ?_
    have e : (List.map (fun m => (Reason.pipeline, m)) (pipeAll c s.piped new).2).map (·.2) = (pipeAll c s.piped new).2 := by
      simp [Function.comp_def]
    rw [List.map_append, e, List.map_append]
    rw [List.perm_iff_count] at hpp ⊢
    intro a
    have := hpp a
    simp only [List.count_append] at this ⊢
    omega

theorem waiting_log {l : Logger} {m : Msg} (h : refused l m = false) :
    ∃ new, (l.step (.log m)).processed = l.processed ++ new ∧ new ++ waiting (l.step (.log m)) = waiting l ++ [m] := by
  unfold refused at h
  cases hs : l.state with
  | initialized => exact ⟨[m], by simp [Logger.step, hs], by simp [Logger.step, hs, waiting]⟩
  | uninitialized b =>
    rw [hs] at h
    simp only [ne_eq, decide_not, Bool.not_eq_false', decide_eq_true_eq] at h
    refine ⟨[], by simp [Logger.step, hs], ?_⟩
    simp only [Logger.step, hs, waiting, List.nil_append]
    unfold PreBuf.push at h ⊢
    split
    · rename_i h1; simp [h1] at h
    · split
      · rename_i h1 h2; simp [h1, h2] at h
      · rfl

theorem waiting_config (l : Logger) :
    ∃ new, (l.step .config).processed = l.processed ++ new ∧ new ++ waiting (l.step .config) = waiting l := by
  cases hs : l.state with
  | initialized => exact ⟨[], by simp [Logger.step, hs], by simp [Logger.step, hs]⟩
  | uninitialized b => exact ⟨b.items, by simp [Logger.step, hs], by simp [Logger.step, hs, waiting]⟩

theorem Sys.Inv.step {c : Cfg} (hc : c.Sane) {s : Sys} (h : s.Inv c) (e : Ev) : (s.step c e).Inv c := by
  cases e with
  | chan a =>
    simp only [Sys.step]
    split
    · exact h
    · obtain ⟨⟨la, e1⟩, ⟨lr, e2⟩⟩ := accepted_step s.chan a
      have hh : Sys.handled { s with chan := (s.chan.step a).1 } = s.handled := by
        simp only [Sys.handled, e1, List.take_append]
        rw [Nat.sub_eq_zero_of_le h.taken_accepted]; simp
      refine ⟨(h.chan.step a).1, ?_, h.written, ?_, ?_⟩
      · show s.taken ≤ (s.chan.step a).1.received.length
        rw [e2, List.length_append]; have := h.taken; omega
      · rw [hh]; exact h.order
      · rw [hh]; exact h.perm
  | handle =>
    simp only [Sys.step]
    split
    · exact h
    · split
      · exact h
      · rename_i m hm
        have hlt : s.taken < s.chan.received.length := (List.getElem?_eq_some_iff.mp hm).1
        have hm2 : s.chan.accepted[s.taken]? = some m := by
          rw [← h.chan.fifo, List.getElem?_append_left hlt]; exact hm
        have hh : Sys.handled { s with taken := s.taken + 1 } = s.handled ++ [m] := by
          simp only [Sys.handled, List.append_assoc]
          rw [List.take_add_one, hm2]; rfl
        split
        · refine ⟨h.chan, hlt, h.written, ?_, ?_⟩
          · show s.inside.Sublist (Sys.handled { s with taken := s.taken + 1 })
            rw [hh]; exact h.order.trans (List.sublist_append_left _ _)
          · show (Sys.handled { s with taken := s.taken + 1 }).Perm ((s.lost ++ [(Reason.preConfig, m)]).map (·.2) ++ s.inside)
            rw [hh, List.map_append]
            refine (h.perm.append_right [m]).trans ?_
            rw [List.perm_iff_count]
            intro a
            simp only [List.count_append, List.map_cons, List.map_nil]
            omega
        · rename_i hr
          obtain ⟨new, e1, e2⟩ := waiting_log (by simpa using hr : refused s.logger m = false)
          refine Sys.Inv.pass (new := new) hc (s := { s with taken := s.taken + 1 }) h.chan hlt h.written e1 ?_ ?_
          · rw [hh, e2]
            show (s.disk.map (·.1) ++ s.vol.map (·.1) ++ (waiting s.logger ++ [m])).Sublist _
            rw [← List.append_assoc]
            exact h.order.append (List.Sublist.refl _)
          · rw [hh, e2]
            show (s.handled ++ [m]).Perm (s.lost.map (·.2) ++ (s.disk.map (·.1) ++ s.vol.map (·.1) ++ (waiting s.logger ++ [m])))
            rw [← List.append_assoc (s.disk.map (·.1) ++ s.vol.map (·.1)), ← List.append_assoc (s.lost.map (·.2))]
            exact h.perm.append_right _
  | config =>
    obtain ⟨new, e1, e2⟩ := waiting_config s.logger
    refine Sys.Inv.pass (new := new) hc (s := s) h.chan h.taken h.written e1 ?_ ?_
    · rw [e2]; exact h.order
    · rw [e2]; exact h.perm
  | move ok =>
    simp only [Sys.step]
    split
    · exact h
    · rename_i r rs hv
      have hi : s.inside = s.disk.map (·.1) ++ (r.1 :: rs.map (·.1)) ++ waiting s.logger := by
        simp [Sys.inside, hv]
      split
      · have hj : Sys.inside { s with vol := rs, disk := s.disk ++ [r], cu := s.cu.step (.write (c.enc r)) } = s.inside := by
          rw [hi]; simp [Sys.inside]
        refine ⟨h.chan, h.taken, ?_, ?_, ?_⟩
        · show s.cu.written ++ [c.enc r] = _
          rw [h.written]; simp
        · rw [hj]; exact h.order
        · rw [hj]; exact h.perm
      · refine ⟨h.chan, h.taken, h.written, ?_, ?_⟩
        · refine List.Sublist.trans ?_ h.order
          rw [hi]
          show (s.disk.map (·.1) ++ rs.map (·.1) ++ waiting s.logger).Sublist _
          exact ((List.sublist_cons_self _ _).append_left _).append (List.Sublist.refl _)
        · refine h.perm.trans ?_
          rw [hi]
          show (s.lost.map (·.2) ++ _).Perm ((s.lost ++ [(Reason.disk, r.1)]).map (·.2) ++ (s.disk.map (·.1) ++ rs.map (·.1) ++ waiting s.logger))
          rw [List.perm_iff_count]
          intro a
          simp only [List.count_append, List.map_append, List.map_cons, List.map_nil, List.count_cons, List.count_nil]
          omega
  | up e =>
    have key : ∀ e', (∀ d, e' ≠ .write d) → e' ≠ .kill → Sys.Inv c { s with cu := s.cu.step e' } := by
      intro e' h1 h2
      refine ⟨h.chan, h.taken, ?_, h.order, h.perm⟩
      have : (s.cu.step e').written = s.cu.written := by
        cases e' with
        | write d => exact absurd rfl (h1 d)
        | _ =>
          simp only [CU.step, CU.check, CU.flush, CU.arm]
          repeat' split
          all_goals rfl
      show (s.cu.step e').written = _
      rw [this]; exact h.written
    cases e with
    | write d => exact h
    | kill => exact h
    | _ => exact key _ (by simp) (by simp)
  | die =>
    refine ⟨Chan.inv_init _ _, Nat.zero_le _, h.written, ?_, ?_⟩
    · show (s.disk.map (fun x : Rec => x.1) ++ [] ++ []).Sublist (s.past ++ s.chan.accepted ++ [])
      simp only [List.append_nil]
      refine List.Sublist.trans ?_ (h.order.trans ?_)
      · unfold Sys.inside; rw [List.append_assoc]; exact List.sublist_append_left _ _
      · exact (List.take_sublist _ _).append_left _
    · show (s.past ++ s.chan.accepted ++ []).Perm ((s.lost ++ s.inMemory.map fun m => (Reason.died, m)).map (fun x : Reason × Msg => x.2) ++ (s.disk.map (fun x : Rec => x.1) ++ [] ++ []))
      have e1 : (s.inMemory.map fun m => (Reason.died, m)).map (fun x : Reason × Msg => x.2) = s.inMemory := by simp [Function.comp_def]
      have e2 : s.past ++ s.chan.accepted = s.handled ++ s.chan.accepted.drop s.taken := by
        simp [Sys.handled, List.take_append_drop]
      have e3 : s.chan.accepted.drop s.taken = s.chan.received.drop s.taken ++ s.chan.queue := by
        rw [← h.chan.fifo, List.drop_append_of_le_length h.taken]
      rw [List.map_append, e1, e2, e3]
      have hp := h.perm
      rw [List.perm_iff_count] at hp ⊢
      intro a
      have := hp a
      simp only [Sys.inMemory, Sys.inside, List.count_append, List.append_nil] at this ⊢
      omega

theorem Sys.run_inv {c : Cfg} (hc : c.Sane) (es : List Ev) : ∀ {s : Sys}, s.Inv c → (s.run c es).Inv c := by
  induction es with
  | nil => intro s h; exact h
  | cons e es ih => intro s h; exact ih (h.step hc e)

/-! ### The uploader -/

/-- The uploader steps of an event in a state. -/
def Sys.cuEvs (c : Cfg) (s : Sys) : Ev → List CEv
  | .move true => match s.vol with
    | [] => []
    | r :: _ => [.write (c.enc r)]
  | .up e => match e with
    | .write _ => []
    | .kill => []
    | e => [e]
  | .die => [.kill]
  | _ => []

def Sys.cuRun (c : Cfg) (s : Sys) : List Ev → List CEv
  | [] => []
  | e :: es => s.cuEvs c e ++ Sys.cuRun c (s.step c e) es

theorem Sys.cu_step (c : Cfg) (s : Sys) (e : Ev) : (s.step c e).cu = s.cu.run (s.cuEvs c e) := by
  cases e with
  | chan a => simp only [Sys.step]; split <;> rfl
  | handle =>
    simp only [Sys.step]
    split
    · rfl
    · split
      · rfl
      · split <;> rfl
  | config => rfl
  | move ok =>
    cases hv : s.vol with
    | nil => cases ok <;> simp [Sys.step, hv, Sys.cuEvs, CU.run]
    | cons r rs => cases ok <;> simp [Sys.step, hv, Sys.cuEvs, CU.run]
  | up e => cases e <;> rfl
  | die => rfl

theorem Sys.cu_run (c : Cfg) (es : List Ev) : ∀ s : Sys, (s.run c es).cu = s.cu.run (s.cuRun c es) := by
  induction es with
  | nil => intro s; rfl
  | cons e es ih =>
    intro s
    show ((s.step c e).run c es).cu = _
    rw [ih, Sys.cu_step]
    simp [Sys.cuRun, CU.run]

theorem Sys.cuEvs_mem (c : Cfg) (s : Sys) (e : Ev) (x : CEv) (hx : x ∈ s.cuEvs c e) :
    (∃ d, x = .write d) ∨ x = .kill ∨ e = .up x := by
  cases e with
  | move ok =>
    cases ok with
    | false => simp [Sys.cuEvs] at hx
    | true =>
      simp only [Sys.cuEvs] at hx
      split at hx
      · simp at hx
      · left; exact ⟨_, by simpa using hx⟩
  | up e =>
    cases e with
    | write d => simp [Sys.cuEvs] at hx
    | kill => simp [Sys.cuEvs] at hx
    | _ =>
      right; right
      simp only [Sys.cuEvs, List.mem_singleton] at hx
      rw [hx]
  | die => right; left; simpa [Sys.cuEvs] using hx
  | chan a => simp [Sys.cuEvs] at hx
  | handle => simp [Sys.cuEvs] at hx
  | config => simp [Sys.cuEvs] at hx

theorem Sys.cuRun_mem (c : Cfg) (x : CEv) (es : List Ev) : ∀ s : Sys, x ∈ s.cuRun c es →
    (∃ d, x = .write d) ∨ x = .kill ∨ Ev.up x ∈ es := by
  induction es with
  | nil => intro s hx; simp [Sys.cuRun] at hx
  | cons e es ih =>
    intro s hx
    simp only [Sys.cuRun, List.mem_append] at hx
    rcases hx with hx | hx
    · rcases s.cuEvs_mem c e x hx with h | h | h
      · exact Or.inl h
      · exact Or.inr (Or.inl h)
      · right; right; rw [h]; exact List.mem_cons_self
    · rcases ih _ hx with h | h | h
      · exact Or.inl h
      · exact Or.inr (Or.inl h)
      · right; right; exact List.mem_cons_of_mem _ h

theorem Sys.run_cu_init (c : Cfg) (es : List Ev) :
    ((Sys.init c).run c es).cu = CU.init.run ((Sys.init c).cuRun c es) := Sys.cu_run c es _

/-! ### The theorems -/

/-- C83: every accepted log is, at any time, in exactly one place: lost for one of the reasons, in the file (uploaded or still to be
uploaded), or still in memory. -/
theorem C83_accounted (c : Cfg) (hc : c.Sane) (es : List Ev) :
    let s := (Sys.init c).run c es
    s.accepted.Perm (s.lost.map (·.2) ++ s.disk.map (·.1) ++ s.inMemory) := by
  intro s
  have h : s.Inv c := Sys.run_inv hc es (Sys.inv_init c)
  have e2 : s.accepted = s.handled ++ s.chan.accepted.drop s.taken := by
    simp [Sys.accepted, Sys.handled, List.take_append_drop]
  have e3 : s.chan.accepted.drop s.taken = s.chan.received.drop s.taken ++ s.chan.queue := by
    rw [← h.chan.fifo, List.drop_append_of_le_length h.taken]
  rw [e2, e3]
  have hp := h.perm
  rw [List.perm_iff_count] at hp ⊢
  intro a
  have := hp a
  simp only [Sys.inMemory, Sys.inside, List.count_append] at this ⊢
  omega

/-- C83: the records in the file, followed by what is still in memory, are accepted logs in the order of acceptance, none twice; the
file holds them as encoded. -/
theorem C83_order (c : Cfg) (hc : c.Sane) (es : List Ev) :
    let s := (Sys.init c).run c es
    (s.disk.map (·.1) ++ s.inMemory).Sublist s.accepted ∧ s.cu.written = s.disk.map c.enc := by
  intro s
  have h : s.Inv c := Sys.run_inv hc es (Sys.inv_init c)
  refine ⟨?_, h.written⟩
  have e2 : s.accepted = s.handled ++ s.chan.accepted.drop s.taken := by
    simp [Sys.accepted, Sys.handled, List.take_append_drop]
  have e3 : s.chan.accepted.drop s.taken = s.chan.received.drop s.taken ++ s.chan.queue := by
    rw [← h.chan.fifo, List.drop_append_of_le_length h.taken]
  rw [e2, e3]
  have : s.disk.map (·.1) ++ s.inMemory = s.inside ++ (s.chan.received.drop s.taken ++ s.chan.queue) := by
    simp [Sys.inMemory, Sys.inside]
  rw [this]
  exact h.order.append (List.Sublist.refl _)

/-- C83: whatever happens, every upload carries consecutive records of the file, so accepted logs in the order of acceptance, none twice
in the same upload, with the bytes the log was encoded to. -/
theorem C83_batches (c : Cfg) (hc : c.Sane) (es : List Ev) :
    let s := (Sys.init c).run c es
    ∀ u ∈ s.cu.finished, u.1 ≠ [] ∧ ∃ recs : List Rec, (recs.map (·.1)).Sublist s.accepted ∧ u.1.map (·.2) = recs.map c.enc := by
  intro s u hu
  have ho := C83_order c hc es
  have hrun := Sys.run_cu_init c es
  have hb := Verif.Upload.C12_continuous ((Sys.init c).cuRun c es)
  rw [← hrun] at hb
  obtain ⟨h1, a, h2⟩ := hb u hu
  refine ⟨h1, (s.disk.drop a).take u.1.length, ?_, ?_⟩
  · refine List.Sublist.trans ?_ ((List.sublist_append_left _ _).trans ho.1)
    exact ((List.take_sublist _ _).trans (List.drop_sublist _ _)).map _
  · rw [h2]
    have : ((Sys.init c).run c es).cu.written = s.disk.map c.enc := ho.2
    rw [this, ← List.map_drop, ← List.map_take]

/-- C83, when no upload is cancelled by a shutdown and no uploader goes on after abandoning an upload: a record that was removed from the
file was part of an upload that was carried through.  Missing: `C13_canceled_violated`, `C13_abort_violated`. -/
theorem C83_uploaded_partial (c : Cfg) (es : List Ev)
    (hcan : Ev.up (.result .canceled) ∉ es) (hgo : Ev.up .abortGo ∉ es) :
    let s := (Sys.init c).run c es
    ∀ i, i < s.cu.acked → Uploaded (· ≠ .canceled) s.cu i := by
  intro s
  have hrun : s.cu = _ := Sys.run_cu_init c es
  rw [hrun]
  apply Verif.Upload.C13_acknowledged_partial
  intro e he
  rcases Sys.cuRun_mem c e es _ he with ⟨d, rfl⟩ | rfl | h
  · trivial
  · trivial
  · cases e with
    | abortGo => exact absurd h hgo
    | result r => intro hr; rw [hr] at h; exact hcan h
    | _ => trivial

/-! ### Once -/

/-- How many logs of the last upload are still to be removed from the file. -/
def pending (s : CU) : Nat := match s.phase with
  | .acking k => k
  | _ => 0

/-- The uploads carried all logs removed from the file and to be removed, each once, in order. -/
structure Exact (s : CU) : Prop where
  seg : Segment s.written 0 (s.finished.flatMap (·.1))
  len : (s.finished.flatMap (·.1)).length = s.acked + pending s

theorem Exact.of {s t : CU} (h : Exact s) (h1 : t.written = s.written) (h2 : t.finished = s.finished)
    (h3 : t.acked + pending t = s.acked + pending s) : Exact t :=
  ⟨by rw [h1, h2]; exact h.seg, by rw [h2, h3]; exact h.len⟩

theorem Exact.step {s : CU} (hal : s.Aligned fun _ => True) (h : Exact s) (e : CEv)
    (hk : e = .kill → ∀ k, s.phase ≠ .acking k) : Exact (s.step e) := by
  have hcheck : ∀ (u : CU) (l : Verif.Upload.Limits), u.phase = .collecting → (u.check l).written = u.written ∧
      (u.check l).finished = u.finished ∧ (u.check l).acked = u.acked ∧ pending (u.check l) = 0 := by
    intro u l hu
    unfold CU.check CU.flush CU.arm
    repeat' split
    all_goals simp [pending, hu]
  cases e with
  | write d => exact ⟨Verif.Upload.seg_write h.seg d, h.len⟩
  | start =>
    cases hp : s.phase with
    | stopped => simp only [CU.step, hp]; exact h.of rfl rfl (by simp [pending, hp])
    | _ => simp only [CU.step, hp]; exact h
  | read l =>
    simp only [CU.step]
    split
    · rename_i d hp hd
      obtain ⟨a1, a2, a3, a4⟩ := hcheck { s with batch := s.batch ++ [(s.pos, d)], pos := s.pos + 1 } l hp
      exact h.of a1 a2 (by rw [a3, a4]; simp [pending, hp])
    · exact h
  | deadline =>
    cases hp : s.phase with
    | collecting =>
      simp only [CU.step, hp]
      split
      · exact h.of rfl rfl (by simp [pending, hp, CU.flush])
      · exact h
    | _ => simp only [CU.step, hp]; exact h
  | flag l =>
    cases hp : s.phase with
    | collecting =>
      simp only [CU.step, hp]
      obtain ⟨a1, a2, a3, a4⟩ := hcheck s l hp
      exact h.of a1 a2 (by rw [a3, a4]; simp [pending, hp])
    | _ => simp only [CU.step, hp]; exact h
  | result r =>
    cases hp : s.phase with
    | uploading logs =>
      simp only [CU.step, hp]
      obtain ⟨b1, b2, b3⟩ := hal.up logs hp
      have hl : (s.finished.flatMap (·.1)).length = s.acked := by rw [h.len]; simp [pending, hp]
      refine ⟨⟨?_, ?_⟩, ?_⟩
      · simp only [List.flatMap_append, List.flatMap_cons, List.flatMap_nil, List.append_nil, List.map_append, List.length_append]
        rw [h.seg.1, b2, hl, ← List.range'_append]
        simp
      · intro x hx
        simp only [List.flatMap_append, List.flatMap_cons, List.flatMap_nil, List.append_nil, List.mem_append] at hx
        rcases hx with hx | hx
        · exact h.seg.2 x hx
        · exact b3 x hx
      · simp [hl, pending]
    | _ => simp only [CU.step, hp]; exact h
  | advance =>
    cases hp : s.phase with
    | acking k =>
      cases k with
      | zero => simp only [CU.step, hp]; exact h.of rfl rfl (by simp [pending, hp])
      | succ k =>
        simp only [CU.step, hp]
        refine h.of rfl rfl ?_
        by_cases hk0 : k = 0
        · simp [pending, hp, hk0]
        · simp only [pending, hp, hk0, if_false]; omega
    | _ => simp only [CU.step, hp]; exact h
  | shut => exact h.of rfl rfl rfl
  | stop =>
    cases hp : s.phase with
    | collecting =>
      simp only [CU.step, hp]
      split
      · exact h.of rfl rfl (by simp [pending, hp])
      · exact h
    | _ => simp only [CU.step, hp]; exact h
  | abortStop =>
    cases hp : s.phase with
    | uploading logs =>
      simp only [CU.step, hp]
      split
      · exact h.of rfl rfl (by simp [pending, hp])
      · exact h
    | _ => simp only [CU.step, hp]; exact h
  | abortGo =>
    cases hp : s.phase with
    | uploading logs =>
      simp only [CU.step, hp]
      split
      · exact h.of rfl rfl (by simp [pending, hp])
      · exact h
    | _ => simp only [CU.step, hp]; exact h
  | kill =>
    have := hk rfl
    refine h.of rfl rfl ?_
    cases hp : s.phase with
    | acking k => exact absurd hp (this k)
    | _ => simp [pending, hp, CU.step]

/-- No uploader goes on after abandoning an upload, and no process dies between the end of an upload and the removal of its logs. -/
def Careful (c : Cfg) (s : Sys) : List Ev → Prop
  | [] => True
  | e :: es => e ≠ .up .abortGo ∧ (e = .die → ∀ k, s.cu.phase ≠ .acking k) ∧ Careful c (s.step c e) es

theorem exact_run (c : Cfg) (es : List Ev) : ∀ s : Sys, s.cu.Wf → s.cu.Aligned (fun _ => True) → Exact s.cu → Careful c s es →
    Exact (s.run c es).cu := by
  induction es with
  | nil => intro s _ _ h _; exact h
  | cons e es ih =>
    intro s hw hal hex hcar
    obtain ⟨h1, h2, h3⟩ := hcar
    have hev : s.cuEvs c e = [] ∨ ∃ x, s.cuEvs c e = [x] ∧ x ≠ .abortGo ∧ (x = .kill → e = .die) := by
      cases e with
      | move ok =>
        cases ok with
        | false => left; rfl
        | true =>
          simp only [Sys.cuEvs]
          split
          · left; rfl
          · right; exact ⟨_, rfl, by simp, by simp⟩
      | up x =>
        cases x with
        | write d => left; rfl
        | kill => left; rfl
        | abortGo => exact absurd rfl h1
        | _ => right; exact ⟨_, rfl, by simp, by simp⟩
      | die => right; exact ⟨_, rfl, by simp, fun _ => rfl⟩
      | chan a => left; rfl
      | handle => left; rfl
      | config => left; rfl
    have hst := Sys.cu_step c s e
    apply ih _ _ _ _ h3
    · rw [hst]; exact Verif.Upload.CU.wf_run _ _ hw
    · rw [hst]
      refine Verif.Upload.aligned_run _ _ hw hal ?_
      intro x hx
      rcases hev with h0 | ⟨y, hy, hy1, _⟩
      · rw [h0] at hx; simp at hx
      · rw [hy] at hx
        simp only [List.mem_singleton] at hx
        subst hx
        cases x <;> first | trivial | exact absurd rfl hy1
    · rw [hst]
      rcases hev with h0 | ⟨y, hy, hy1, hy2⟩
      · rw [h0]; exact hex
      · rw [hy]
        exact hex.step hal y fun hk => h2 (hy2 hk)

/-- C83, in careful runs: all uploads that returned, one after the other, carry the accepted logs that reached the file, oldest first,
none twice and none left out, as many as were removed from the file (and are being removed).  Missing: `C83_twice_violated`,
`C13_abort_violated`. -/
theorem C83_once_partial (c : Cfg) (hc : c.Sane) (es : List Ev) (hcar : Careful c (Sys.init c) es) :
    let s := (Sys.init c).run c es
    ∃ n, s.cu.acked ≤ n ∧ n ≤ s.disk.length ∧ (s.cu.finished.flatMap (·.1)).map (·.2) = (s.disk.take n).map c.enc ∧
      ((s.disk.take n).map (·.1)).Sublist s.accepted := by
  intro s
  have hex : Exact s.cu := exact_run c es _ Verif.Upload.CU.wf_init (Verif.Upload.aligned_init _)
    ⟨⟨rfl, by simp [Sys.init, CU.init]⟩, rfl⟩ hcar
  have ho := C83_order c hc es
  have hw : s.cu.written = s.disk.map c.enc := ho.2
  let n := (s.cu.finished.flatMap (·.1)).length
  have hget : ∀ i, i < n → s.cu.written[i]? = ((s.cu.finished.flatMap (·.1)).map (·.2))[i]? := by
    intro i hi
    have e1 : ((s.cu.finished.flatMap (·.1)).map (·.1))[i]? = some i := by
      rw [hex.seg.1, List.getElem?_range' hi]; simp
    rw [List.getElem?_map] at e1
    obtain ⟨x, hx, hxa⟩ := Option.map_eq_some_iff.mp e1
    have := hex.seg.2 x (List.mem_of_getElem? hx)
    rw [hxa] at this
    rw [this, List.getElem?_map, hx]; rfl
  have hlen : n ≤ s.disk.length := by
    by_contra hlt
    have hn : 0 < n := by omega
    have := hget (n - 1) (by omega)
    have h2 : s.cu.written[n - 1]? = none := by
      rw [List.getElem?_eq_none_iff, hw, List.length_map]; omega
    rw [h2] at this
    have h3 := List.getElem?_eq_none_iff.mp this.symm
    rw [List.length_map] at h3
    have : n = (s.cu.finished.flatMap (·.1)).length := rfl
    omega
  refine ⟨n, by show _ ≤ (s.cu.finished.flatMap (·.1)).length; rw [hex.len]; omega, hlen, ?_, ?_⟩
  · apply List.ext_getElem?
    intro i
    by_cases hi : i < n
    · rw [← hget i hi, hw, List.map_take, List.getElem?_take_of_lt hi]
    · have h1 : ((s.cu.finished.flatMap (·.1)).map (·.2))[i]? = none := by
        rw [List.getElem?_eq_none_iff, List.length_map]; show n ≤ i; omega
      have h2 : ((s.disk.take n).map c.enc)[i]? = none := by
        rw [List.getElem?_eq_none_iff]; simp; omega
      rw [h1, h2]
  · exact ((List.take_sublist _ _).map _).trans ((List.sublist_append_left _ _).trans ho.1)

/-- The logs are always for buffer 1, which accepts them. -/
def allTo1 : Cfg where
  slots := 4
  capacity := 100
  preCount := 1
  preSize := 50
  buf := 1
  enc := fun r => [r.1.id]
  oracle := fun n => if n = 2 then none else some ⟨⟨fun _ => .ok, fun _ => .ok, ⟨[1], []⟩, Verif.Mgr.Mgr.init, true, none⟩, [1], none, false⟩

theorem allTo1_sane : allTo1.Sane := by
  intro n i h
  simp only [allTo1] at h
  split at h
  · cases h
  · cases h; simp [PipeIn.dest, allTo1]

/-- Send a log, receive and handle it. -/
def one (m : Msg) : List Ev :=
  [.chan (.reserve 0 m), .chan (.enqueue 0), .chan .recv, .chan .release, .handle]

/-- A process that dies between the end of an upload and the removal of its logs from the file: the next process uploads them again
(consumer.rs:528-539 and the start of the uploader, 441-465). -/
theorem C83_twice_violated : ∃ es : List Ev,
    let s := (Sys.init allTo1).run allTo1 es
    s.accepted = [⟨7, 1⟩] ∧ s.cu.finished.map (fun u => (u.1.map (·.2), u.2)) = [([[7]], .success), ([[7]], .success)] :=
  ⟨.config :: one ⟨7, 1⟩ ++ [.move true, .up .start, .up (.read ⟨1, 1⟩), .up (.result .success), .die, .up .start,
    .up (.read ⟨1, 1⟩), .up (.result .success)], by decide +kernel⟩

/-- Five logs: the second is refused by the pre-configuration buffer, the fourth is filtered out, the fifth has no room in the file; a process
dies with a sixth in its channel. -/
example :
    let es : List Ev := one ⟨1, 1⟩ ++ one ⟨2, 1⟩ ++ [.config, .move true, .up .start] ++ one ⟨3, 1⟩ ++ one ⟨4, 1⟩ ++ one ⟨5, 1⟩ ++
      [.move true, .move false, .up (.read ⟨2, 9⟩), .up (.read ⟨2, 9⟩), .up (.result .success), .up .advance, .up .advance,
       .chan (.reserve 0 ⟨6, 1⟩), .chan (.enqueue 0), .die]
    let s := (Sys.init allTo1).run allTo1 es
    s.accepted.map (·.id) = [1, 2, 3, 4, 5, 6] ∧ s.lost.map (fun x => (x.1, x.2.id)) =
      [(.preConfig, 2), (.pipeline, 4), (.disk, 5), (.died, 6)] ∧ s.disk.map (·.1.id) = [1, 3] ∧ s.inMemory = [] ∧
    s.cu.finished = [([(0, [1]), (1, [3])], .success)] ∧ s.cu.acked = 2 := by decide +kernel

example : Careful allTo1 (Sys.init allTo1) (.config :: one ⟨7, 1⟩ ++ [.move true, .up .start, .up (.read ⟨1, 1⟩), .up (.result .success),
    .up .advance, .die, .up .start]) := by
  simp only [one, List.cons_append, List.nil_append, Careful]
  refine ⟨by simp, by simp, by simp, by simp, by simp, by simp, by simp, by simp, by simp, by simp, by simp, by simp, by simp, by simp,
    by simp, by simp, by simp, by simp, by simp, by simp, by simp, by simp, by simp, ?_, by simp, by simp, trivial⟩
  intro _ k hk
  have : ((Sys.init allTo1).run allTo1 (.config :: one ⟨7, 1⟩ ++ [.move true, .up .start, .up (.read ⟨1, 1⟩), .up (.result .success),
    .up .advance])).cu.phase = .collecting := by decide +kernel
  have h2 : Verif.Upload.Phase.collecting = .acking k := this.symm.trans hk
  cases h2

end Verif.Flow
