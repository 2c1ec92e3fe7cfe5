import Verif.Conf.Model
import Verif.Mgr.Props

namespace Verif.Conf

open Verif.Mgr (Id Handle Ty BufCfg Entry Mgr ids)
open Verif.Pipe (W EngineResult StreamCfg)
open Verif.Startup (Upd Wr)

/-! ### The manager after an update, for any configuration -/

theorem loop_ids (ok : Id → Bool) (cs : List BufCfg) : ∀ (a a' : Verif.Mgr.Acc), Verif.Mgr.cfgLoop ok a cs = (a', true) →
    ∀ k, k ∈ ids a'.updated ↔ k ∈ ids a.updated ∨ k ∈ cs.map (·.id) := by
  induction cs with
  | nil =>
    intro a a' h k
    simp only [Verif.Mgr.cfgLoop, Prod.mk.injEq, and_true] at h
    rw [← h]; simp
  | cons c cs ih =>
    intro a a' h k
    unfold Verif.Mgr.cfgLoop at h
    cases hs : Verif.Mgr.cfgStep ok a c with
    | mk a1 b =>
      rw [hs] at h
      cases b with
      | false => simp at h
      | true =>
        simp only at h
        rw [ih a1 a' h k]
        have h1 : k ∈ ids a1.updated ↔ k ∈ ids a.updated ∨ k = c.id := by
          unfold Verif.Mgr.cfgStep at hs
          cases ht : c.ty with
          | none => rw [ht] at hs; simp at hs
          | some ty =>
            rw [ht] at hs
            simp only at hs
            cases hf : Verif.Mgr.find c.id a.current with
            | some e =>
              rw [hf] at hs
              simp only [Prod.mk.injEq, and_true] at hs
              rw [← hs]
              have := (Verif.Mgr.find_some hf).2
              simp only [Verif.Mgr.mem_ids_insert, this]
            | none =>
              rw [hf] at hs
              simp only at hs
              split at hs
              · simp only [Prod.mk.injEq, and_true] at hs
                rw [← hs]
                simp only [Verif.Mgr.mem_ids_insert]
              · simp at hs
        rw [h1]
        simp only [List.map_cons, List.mem_cons]
        constructor
        · rintro ((h | h) | h)
          · exact .inl h
          · exact .inr (.inl h)
          · exact .inr (.inr h)
        · rintro (h | h | h)
          · exact .inl (.inl h)
          · exact .inl (.inr h)
          · exact .inr h

theorem update_ids (m m' : Mgr) (cfg : List BufCfg) (streaming : Bool) (ok : Id → Bool)
    (h : Verif.Mgr.update m cfg streaming ok = (m', true)) (k : Id) : k ∈ ids m'.bufs ↔ k ∈ cfg.map (·.id) := by
  unfold Verif.Mgr.update at h
  cases hl : Verif.Mgr.cfgLoop ok ⟨m.bufs, [], [], m.next, m.files⟩ cfg with
  | mk a b =>
    simp only [hl] at h
    cases b with
    | false => simp at h
    | true =>
      simp only [if_true, Prod.mk.injEq, and_true] at h
      have := loop_ids ok cfg _ a hl k
      rw [← h]
      rw [this]
      simp [ids]

theorem drop_bufs (m : Mgr) (h : Handle) : (Verif.Mgr.dropHandle m h).bufs = m.bufs ∧ (Verif.Mgr.dropHandle m h).stream = m.stream := by
  unfold Verif.Mgr.dropHandle
  split <;> exact ⟨rfl, rfl⟩

/-! ### Specification -/

/-- The configuration in force, read off what was observed: the last one that was loaded, or answered without a nack, since the
process started. -/
def inForce : Option (Upd Cfg) → List Obs → Option (Upd Cfg)
  | a, [] => a
  | _, .started :: os => inForce none os
  | _, .loaded u :: os => inForce (some u) os
  | a, .answered u k :: os => inForce (if k.nack = none then some u else a) os
  | a, .logged _ :: os => inForce a os

theorem inForce_append (a : Option (Upd Cfg)) (l1 l2 : List Obs) : inForce a (l1 ++ l2) = inForce (inForce a l1) l2 := by
  induction l1 generalizing a with
  | nil => rfl
  | cons o l1 ih => cases o <;> simp only [List.cons_append, inForce, ih]

/-- The newest update that was handed to the log buffer. -/
def latest (s : Sys) : Option Pipeline := match s.chan.getLast? with | some p => some p | none => s.pipe

/-! ### What a step does -/

theorem apply_true (s : Sys) (c : Cfg) (ok : Id → Bool) (po : Bool) (h : (apply s c ok po).2 = true) :
    ∃ m', Verif.Mgr.update s.mgr (c.bufs.map (·.1)) (!c.streams.isEmpty) ok = (m', true) ∧
      (apply s c ok po).1 = { s with mgr := m', chan := s.chan ++ [build m' c] } := by
  unfold apply at h ⊢
  cases hu : Verif.Mgr.update s.mgr (c.bufs.map (·.1)) (!c.streams.isEmpty) ok with
  | mk m' b =>
    simp only [hu] at h ⊢
    cases b with
    | false => simp at h
    | true =>
      simp only [if_true] at h ⊢
      split at h
      · rename_i hc
        rw [if_pos hc]
        exact ⟨m', rfl, rfl⟩
      · simp at h

theorem apply_false (s : Sys) (c : Cfg) (ok : Id → Bool) (po : Bool) (h : (apply s c ok po).2 = false) :
    ∃ m', (apply s c ok po).1 = { s with mgr := m' } ∧
      (po = true → c.bufs.all (·.2) = true → m'.bufs = s.mgr.bufs ∧ m'.stream = s.mgr.stream ∧ m'.events = s.mgr.events ∧
        m'.doomed = s.mgr.doomed) := by
  unfold apply at h ⊢
  cases hu : Verif.Mgr.update s.mgr (c.bufs.map (·.1)) (!c.streams.isEmpty) ok with
  | mk m' b =>
    simp only [hu] at h ⊢
    cases b with
    | false =>
      simp only [Bool.false_eq_true, if_false]
      exact ⟨m', rfl, fun _ _ => Verif.Mgr.C50_failed _ _ _ _ _ hu⟩
    | true =>
      simp only [if_true] at h ⊢
      split at h
      · simp at h
      · rename_i hc
        rw [if_neg hc]
        refine ⟨m', rfl, fun h1 h2 => ?_⟩
        rw [h1, h2] at hc
        exact absurd rfl hc

/-- All about one call of `process`. -/
theorem process_cases (s : Sys) (u : Upd Cfg) (ok : Id → Bool) (po : Bool) (w : Wr) :
    (∃ c m', u.cfg = some c ∧ (process s u ok po w).2 = true ∧
      Verif.Mgr.update s.mgr (c.bufs.map (·.1)) (!c.streams.isEmpty) ok = (m', true) ∧
      (process s u ok po w).1 = { s with mgr := m', chan := s.chan ++ [build m' c], version := some u.nonce, file := writeFile s.file u w }) ∨
    ((process s u ok po w).2 = false ∧ ∃ m', (process s u ok po w).1 = { s with mgr := m' } ∧
      (po = true → (∀ c, u.cfg = some c → c.bufs.all (·.2) = true) → m'.bufs = s.mgr.bufs ∧ m'.stream = s.mgr.stream ∧
        m'.events = s.mgr.events ∧ m'.doomed = s.mgr.doomed)) := by
  unfold process
  cases hc : u.cfg with
  | none => exact .inr ⟨rfl, s.mgr, rfl, fun _ _ => ⟨rfl, rfl, rfl, rfl⟩⟩
  | some c =>
    simp only
    cases hr : (apply s c ok po).2 with
    | true =>
      obtain ⟨m', h1, h2⟩ := apply_true s c ok po hr
      refine .inl ⟨c, m', rfl, by simp, h1, ?_⟩
      simp only [if_true, h2]
    | false =>
      obtain ⟨m', h1, h2⟩ := apply_false s c ok po hr
      refine .inr ⟨by simp, m', by simp [h1], fun hp hm => h2 hp (hm c rfl)⟩

/-! ### Every selectable buffer has a producer -/

def PipeOk (p : Pipeline) : Prop := ∀ id, id ∈ p.selector ↔ id ∈ p.producers.map (·.id)

theorem build_ok (m m' : Mgr) (c : Cfg) (ok : Id → Bool)
    (h : Verif.Mgr.update m (c.bufs.map (·.1)) (!c.streams.isEmpty) ok = (m', true)) : PipeOk (build m' c) := by
  intro id
  have := update_ids m m' _ _ ok h id
  simp only [ids, List.map_map] at this
  exact this.symm

def SysOk (s : Sys) : Prop := (∀ p ∈ s.chan, PipeOk p) ∧ ∀ p, s.pipe = some p → PipeOk p

theorem process_ok (s : Sys) (u : Upd Cfg) (ok : Id → Bool) (po : Bool) (w : Wr) (hs : SysOk s) : SysOk (process s u ok po w).1 := by
  rcases process_cases s u ok po w with ⟨c, m', _, _, hu, h⟩ | ⟨_, m', h, _⟩
  · rw [h]
    refine ⟨fun p hp => ?_, hs.2⟩
    rcases List.mem_append.mp hp with hp | hp
    · exact hs.1 p hp
    · rw [List.mem_singleton.mp hp]; exact build_ok _ _ _ _ hu
  · rw [h]; exact hs

theorem step_ok (s : Sys) (e : Ev) (hs : SysOk s) : SysOk (step s e).1 := by
  have hr : ∀ f, SysOk (restart s f) := fun f => ⟨fun _ h => by simp [restart] at h, fun _ h => by simp [restart] at h⟩
  cases e with
  | start r ok po w =>
    simp only [step]
    split
    · split
      · exact hr _
      · exact hr _
      · exact process_ok _ _ _ _ _ (hr _)
    · exact hr _
  | server u ok po w => exact process_ok _ _ _ _ _ hs
  | take =>
    simp only [step]
    split
    · exact hs
    · rename_i p ps hc
      refine ⟨fun q hq => hs.1 q (by rw [hc]; exact List.mem_cons_of_mem _ hq), fun q hq => ?_⟩
      cases hq
      exact hs.1 p (by rw [hc]; exact List.mem_cons_self)
  | log m g b w w2 st =>
    simp only [step]
    split <;> exact hs
  | drop h => exact hs

theorem run_ok (es : List Ev) : ∀ s, SysOk s → SysOk (run s es) := by
  induction es with
  | nil => intro s h; exact h
  | cons e es ih => intro s h; exact ih _ (step_ok s e h)

theorem init_ok : SysOk Sys.init := ⟨fun _ h => by simp [Sys.init] at h, fun _ h => by simp [Sys.init] at h⟩

/-- **C72.** Whatever configurations were applied and refused, the buffers the selector in use may choose are exactly those the
pipeline has a producer for. -/
theorem C72_selectable (es : List Ev) (p : Pipeline) (h : (run Sys.init es).pipe = some p) (id : Id) :
    id ∈ p.selector ↔ ∃ e ∈ p.producers, e.id = id := by
  rw [(run_ok es _ init_ok).2 p h id, List.mem_map]

theorem writeAll_ok (w : Id → W) (l : List Id) (h : ∀ i ∈ l, w i = .ok) : Verif.Pipe.writeAll w l = (l, true) := by
  induction l with
  | nil => rfl
  | cons a l ih =>
    unfold Verif.Pipe.writeAll
    rw [h a List.mem_cons_self]
    simp only [ih fun i hi => h i (List.mem_cons_of_mem _ hi)]

/-- **C72**, seen from outside: a log is never lost because a buffer chosen for it is unknown.  If every buffer accepts it, it is
written to every buffer of the configuration in use that matches it. -/
theorem C72_written (es : List Ev) (p : Pipeline) (h : (run Sys.init es).pipe = some p) (m : Id → Bool) (st : Option Bool) (w2 : Id → W) :
    ∃ r, (step (run Sys.init es) (.log m none false (fun _ => .ok) w2 st)).2 = [.logged r] ∧ r.ok = true ∧
      ∀ id, .wrote id ∈ r.steps ↔ id ∈ p.selector ∧ m id = true := by
  have hok := (run_ok es _ init_ok).2 p h
  have hw : ∀ i ∈ (p.selector.filter m).eraseDups, writeVia p (fun _ => W.ok) i = .ok := by
    intro i hi
    rw [List.mem_eraseDups, List.mem_filter] at hi
    unfold writeVia
    rw [if_pos ((hok i).mp hi.1)]
    simp
  simp only [step, h]
  refine ⟨_, rfl, ?_, ?_⟩
  · simp only [Verif.Pipe.process, Verif.Pipe.writes, envOf, writeAll_ok _ _ hw, if_true, Bool.false_eq_true, if_false]
  · intro id
    simp only [Verif.Pipe.process, Verif.Pipe.writes, envOf, writeAll_ok _ _ hw, if_true, Bool.false_eq_true, if_false,
      List.mem_map, Verif.Pipe.Step.wrote.injEq, exists_eq_right, List.mem_eraseDups, List.mem_filter]

/-! ### The version -/

theorem step_version (s : Sys) (e : Ev) (a : Option (Upd Cfg)) (h : s.version = a.map (·.nonce)) :
    (step s e).1.version = (inForce a (step s e).2).map (·.nonce) := by
  cases e with
  | start r ok po w =>
    simp only [step]
    split
    · split
      · rfl
      · rfl
      · rename_i u _
        rcases process_cases (restart s none) u ok po w with ⟨c, m', _, h2, _, h1⟩ | ⟨h2, m', h1, _⟩
        · simp only [h1, h2, if_true, inForce, Option.map_some]
        · rw [h1, h2]; rfl
    · rfl
  | server u ok po w =>
    simp only [step]
    rcases process_cases s u ok po w with ⟨c, m', _, h2, _, h1⟩ | ⟨h2, m', h1, _⟩
    · simp only [h1, h2, if_true, inForce, Option.map_some]
    · simp only [h1, h2, Bool.false_eq_true, if_false, inForce, reduceCtorEq]
      exact h
  | take => simp only [step]; split <;> exact h
  | log m g b w w2 st => simp only [step]; split <;> exact h
  | drop x => exact h

/-- **C72.** What the client reports when it connects is the version of the last configuration that was loaded or answered
without a nack in this process. -/
theorem C72_version (es : List Ev) :
    handshakeVersion (run Sys.init es) = ((inForce none (obs Sys.init es)).map (·.nonce)).getD "" := by
  have gen : ∀ (es : List Ev) (s : Sys) (a : Option (Upd Cfg)), s.version = a.map (·.nonce) →
      (run s es).version = (inForce a (obs s es)).map (·.nonce) := by
    intro es
    induction es with
    | nil => intro s a h; exact h
    | cons e es ih =>
      intro s a h
      simp only [run, obs, inForce_append]
      exact ih _ _ (step_version s e a h)
  unfold handshakeVersion
  rw [gen es Sys.init none rfl]

/-! ### The configuration in force is the one in use -/

/-- Nothing after the update of the manager can fail: all matchers compile and all producers can be made. -/
def Clean : Ev → Prop
  | .start _ _ po _ => po = true
  | .server u _ po _ => po = true ∧ ∀ c, u.cfg = some c → c.bufs.all (·.2) = true
  | _ => True

/-- The pipeline and the manager are as the configuration says. -/
structure InUse (s : Sys) (p : Pipeline) (c : Cfg) : Prop where
  selector : p.selector = c.bufs.map (·.1.id)
  rest : p.rest = c.rest
  /-- no streams, no tail; otherwise the streams whose matchers compile, with the stream buffer of the manager -/
  noTail : c.streams = [] → p.tail = none ∧ s.mgr.stream = none
  tail : c.streams ≠ [] → ∃ h, s.mgr.stream = some h ∧ p.tail = some (c.streams.filterMap Verif.Pipe.compileStream, some h)
  producers : p.producers = s.mgr.bufs
  buffers : ∀ id, (∃ e ∈ s.mgr.bufs, e.id = id) ↔ ∃ b ∈ c.bufs, b.1.id = id

structure Match (s : Sys) (a : Option (Upd Cfg)) : Prop where
  nothing : a = none → s.chan = [] ∧ s.pipe = none ∧ s.mgr.bufs = [] ∧ s.mgr.stream = none
  there : ∀ u, a = some u → ∃ c p, u.cfg = some c ∧ latest s = some p ∧ InUse s p c
  file : ∀ u, s.file = some (some u) → ∀ c, u.cfg = some c → c.bufs.all (·.2) = true

theorem Match.congr {s s' : Sys} {a : Option (Upd Cfg)} (h : Match s a) (h1 : s'.mgr.bufs = s.mgr.bufs)
    (h2 : s'.mgr.stream = s.mgr.stream) (h3 : s'.chan = s.chan) (h4 : s'.pipe = s.pipe) (h5 : s'.file = s.file) : Match s' a := by
  refine ⟨fun ha => ?_, fun u hu => ?_, fun u hu => h.file u (h5 ▸ hu)⟩
  · rw [h1, h2, h3, h4]; exact h.nothing ha
  · obtain ⟨c, p, hc, hp, i⟩ := h.there u hu
    refine ⟨c, p, hc, by unfold latest at hp ⊢; rw [h3, h4]; exact hp, i.selector, i.rest, ?_, ?_, ?_, ?_⟩
    · rw [h2]; exact i.noTail
    · rw [h2]; exact i.tail
    · rw [h1]; exact i.producers
    · rw [h1]; exact i.buffers

theorem build_inUse (s : Sys) (m' : Mgr) (c : Cfg) (ok : Id → Bool) (ps : List Pipeline) (v : Option String)
    (f : Option (Option (Upd Cfg)))
    (h : Verif.Mgr.update s.mgr (c.bufs.map (·.1)) (!c.streams.isEmpty) ok = (m', true)) :
    InUse { s with mgr := m', chan := ps, version := v, file := f } (build m' c) c := by
  have hs := (Verif.Mgr.C50_stream _ _ _ _ _ h).1
  refine ⟨rfl, rfl, fun hc => ?_, fun hc => ?_, rfl, fun id => ?_⟩
  · rw [hc] at hs
    simp only [build, Verif.Pipe.tailNew, hc, List.isEmpty_nil, if_true, Option.map_none, true_and]
    simpa using hs
  · have : c.streams.isEmpty = false := by cases hcs : c.streams with
      | nil => exact absurd hcs hc
      | cons x xs => rfl
    rw [this] at hs
    obtain ⟨x, hx⟩ := Option.isSome_iff_exists.mp hs
    refine ⟨x, hx, ?_⟩
    simp only [build, Verif.Pipe.tailNew, this, Bool.false_eq_true, if_false, Option.map_some, hx]
  · have := update_ids s.mgr m' _ _ ok h id
    simp only [ids, List.mem_map] at this
    simp only [this]
    constructor
    · rintro ⟨b, ⟨x, hx, rfl⟩, rfl⟩; exact ⟨x, hx, rfl⟩
    · rintro ⟨x, hx, rfl⟩; exact ⟨x.1, ⟨x, hx, rfl⟩, rfl⟩

theorem latest_append (s : Sys) (m : Mgr) (p : Pipeline) (v : Option String) (f : Option (Option (Upd Cfg))) :
    latest { s with mgr := m, chan := s.chan ++ [p], version := v, file := f } = some p := by
  simp [latest]

theorem process_match (s : Sys) (u : Upd Cfg) (ok : Id → Bool) (w : Wr) (a : Option (Upd Cfg)) (h : Match s a)
    (hc : ∀ c, u.cfg = some c → c.bufs.all (·.2) = true) :
    Match (process s u ok true w).1 (if (process s u ok true w).2 = true then some u else a) := by
  rcases process_cases s u ok true w with ⟨c, m', hcfg, h2, hu, h1⟩ | ⟨h2, m', h1, hk⟩
  · rw [h2, if_pos rfl, h1]
    refine ⟨fun hn => absurd hn (by simp), fun u' hu' => ?_, fun u' hu' => ?_⟩
    · cases hu'
      exact ⟨c, build m' c, hcfg, latest_append _ _ _ _ _, build_inUse s m' c ok _ _ _ hu⟩
    · cases w with
      | ok => simp only [writeFile, Option.some.injEq] at hu'; subst hu'; exact hc
      | fail => exact h.file u' hu'
      | torn => simp [writeFile] at hu'
  · rw [h2, if_neg (by simp), h1]
    obtain ⟨k1, k2, _, _⟩ := hk rfl hc
    exact h.congr k1 k2 rfl rfl rfl

theorem step_match (s : Sys) (e : Ev) (a : Option (Upd Cfg)) (h : Match s a) (he : Clean e) :
    Match (step s e).1 (inForce a (step s e).2) := by
  have hr : ∀ f, (∀ u, f = some (some u) → ∀ c, u.cfg = some c → c.bufs.all (·.2) = true) →
      Match (restart s f) none := fun f hf =>
    ⟨fun _ => ⟨rfl, rfl, rfl, rfl⟩, fun _ h => (nomatch h), hf⟩
  cases e with
  | start r ok po w =>
    cases he
    simp only [step]
    split
    · split
      · exact hr none (fun _ h => nomatch h)
      · exact hr none (fun _ h => nomatch h)
      · rename_i u hf
        have hm := process_match (restart s none) u ok w none (hr none (fun _ h => nomatch h)) (h.file u hf)
        cases hp : (process (restart s none) u ok true w).2 with
        | true => rw [hp] at hm; simpa [inForce] using hm
        | false => rw [hp] at hm; simpa [inForce] using hm
    · exact hr _ h.file
  | server u ok po w =>
    obtain ⟨hpo, hc⟩ := he
    subst hpo
    have hm := process_match s u ok w a h hc
    simp only [step, inForce]
    cases hp : (process s u ok true w).2 with
    | true => rw [hp] at hm; simpa using hm
    | false => rw [hp] at hm; simpa using hm
  | take =>
    simp only [step]
    split
    · exact h
    · rename_i p ps hc
      refine ⟨fun ha => ?_, fun u hu => ?_, h.file⟩
      · have := (h.nothing ha).1; rw [this] at hc; exact nomatch hc
      · obtain ⟨c, q, hq, hl, i⟩ := h.there u hu
        refine ⟨c, q, hq, ?_, i.selector, i.rest, i.noTail, i.tail, i.producers, i.buffers⟩
        unfold latest at hl ⊢
        rw [hc] at hl
        cases ps with
        | nil => simpa using hl
        | cons x xs =>
          cases hx : (x :: xs).getLast? with
          | none => simp at hx
          | some y =>
            rw [List.getLast?_cons_cons, hx] at hl
            exact hl
  | log m g b w w2 st =>
    simp only [step]
    split
    · exact h
    · exact h.congr rfl rfl rfl rfl rfl
  | drop x => exact h.congr (drop_bufs _ _).1 (drop_bufs _ _).2 rfl rfl rfl

theorem run_match (es : List Ev) : ∀ (s : Sys) (a : Option (Upd Cfg)), Match s a → (∀ e ∈ es, Clean e) →
    Match (run s es) (inForce a (obs s es)) := by
  induction es with
  | nil => intro s a h _; exact h
  | cons e es ih =>
    intro s a h hc
    simp only [run, obs, inForce_append]
    exact ih _ _ (step_match s e a h (hc e List.mem_cons_self)) fun e' he' => hc e' (List.mem_cons_of_mem _ he')

theorem init_match : Match Sys.init none := ⟨fun _ => ⟨rfl, rfl, rfl, rfl⟩, fun _ h => (nomatch h), fun _ h => nomatch h⟩

/-- **C72 (partial).** After every history of starts, configurations and logs, the newest update on its way to the log buffer (the
one it uses, once it has taken all) is the configuration in force: its buffers, their producers, its streams with the stream
buffer of the manager, its filters and workflows; and the buffers that exist are the ones it names.  When nothing is in force,
there are no buffers and no update.  Missing: configurations that are refused after the manager was updated, because a
matcher does not compile or a producer cannot be made (`C72_refused_violated`). -/
theorem C72_in_force_partial (es : List Ev) (hc : ∀ e ∈ es, Clean e) :
    match inForce none (obs Sys.init es) with
    | none => latest (run Sys.init es) = none ∧ (run Sys.init es).mgr.bufs = []
    | some u => ∃ c p, u.cfg = some c ∧ latest (run Sys.init es) = some p ∧ InUse (run Sys.init es) p c := by
  have h := run_match es _ none init_match hc
  cases ha : inForce none (obs Sys.init es) with
  | none =>
    obtain ⟨h1, h2, h3, _⟩ := h.nothing ha
    exact ⟨by simp [latest, h1, h2], h3⟩
  | some u => exact h.there u ha

/-! ### Refused configurations -/

/-- **C72 (partial).** A configuration that is refused by the buffer manager, or has no content, leaves everything as it was,
except that files created for it may stay.  Missing: one that is refused later. -/
theorem C72_refused_partial (s : Sys) (u : Upd Cfg) (ok : Id → Bool) (w : Wr) (a : Ack)
    (hc : ∀ c, u.cfg = some c → c.bufs.all (·.2) = true)
    (h : (step s (.server u ok true w)).2 = [.answered u a]) (hn : a.nack ≠ none) :
    ∃ files next, (step s (.server u ok true w)).1 = { s with mgr := { s.mgr with files := files, next := next } } := by
  simp only [step] at h ⊢
  rcases process_cases s u ok true w with ⟨c, m', hcfg, h2, hu, h1⟩ | ⟨h2, m', h1, hk⟩
  · rw [h2] at h
    simp only [if_true, List.cons.injEq, Obs.answered.injEq, true_and, and_true] at h
    rw [← h] at hn
    exact absurd rfl hn
  · obtain ⟨k1, k2, k3, k4⟩ := hk rfl hc
    refine ⟨m'.files, m'.next, ?_⟩
    rw [h1]
    cases m'
    simp only at k1 k2 k3 k4
    subst k1 k2 k3 k4
    rfl

/-- A configuration is refused exactly if it has no content or the manager refuses it or something after that fails; the nack
names it. -/
theorem C72_answer (s : Sys) (u : Upd Cfg) (ok : Id → Bool) (po : Bool) (w : Wr) :
    ∃ a, (step s (.server u ok po w)).2 = [.answered u a] ∧ (a.nack = none ∨ a.nack = some u.nonce) ∧
      (a.nack = none ↔ ∃ c, u.cfg = some c ∧ (Verif.Mgr.update s.mgr (c.bufs.map (·.1)) (!c.streams.isEmpty) ok).2 = true ∧
        po = true ∧ ∀ b ∈ c.bufs, b.2 = true) := by
  simp only [step]
  refine ⟨_, rfl, ?_, ?_⟩
  · simp only; split <;> simp
  · simp only
    unfold process
    cases hc : u.cfg with
    | none => simp
    | some c =>
      cases hu : Verif.Mgr.update s.mgr (c.bufs.map (·.1)) (!c.streams.isEmpty) ok with
      | mk m' b =>
        simp only [apply, hu]
        cases b with
        | false => simp [hu]
        | true => cases po <;> cases hb : c.bufs.all (·.2) <;> simp_all

/-! ### Violations -/

def cfg1 : Cfg := ⟨[(⟨1, some .trigger⟩, true)], [], 1⟩
/-- A matcher of its buffer does not compile. -/
def cfg2 : Cfg := ⟨[(⟨2, some .trigger⟩, false)], [], 2⟩
def cfg3 : Cfg := ⟨[(⟨3, some .trigger⟩, true)], [], 3⟩
def yes : Id → Bool := fun _ => true
def good : Id → W := fun _ => .ok

/-- The first configuration is applied and used, the second is refused. -/
def refusedRun : List Ev :=
  [.start true yes true .ok, .server ⟨"a", some cfg1⟩ yes true .ok, .take, .server ⟨"b", some cfg2⟩ yes true .ok]

/-- **C72 (violated).** A configuration that is refused because a matcher does not compile has already replaced the buffers: the
log buffer still writes to buffer 1, which is no longer known to the manager, was announced as removed and will be
deleted, while the client reports the first configuration as applied. -/
theorem C72_refused_violated :
    handshakeVersion (run Sys.init refusedRun) = "a" ∧
    (run Sys.init refusedRun).pipe.map (·.selector) = some [1] ∧
    (run Sys.init refusedRun).mgr.bufs.map (·.id) = [2] ∧
    Verif.Mgr.Event.removed 1 ∈ (run Sys.init refusedRun).mgr.events := by
  decide +kernel

/-- The blocking log that follows ends the flush task for good. -/
theorem C72_refused_flush_violated :
    (run Sys.init (refusedRun ++ [.log yes none true good good none])).flushAlive = false := by
  decide +kernel

/-- **C72 (violated).** The answer to a refused configuration names the refused one as the last applied. -/
theorem C72_nack_violated :
    (step (run Sys.init (refusedRun.take 3)) (.server ⟨"b", some cfg2⟩ yes true .ok)).2 =
      [.answered ⟨"b", some cfg2⟩ ⟨some "b", "b"⟩] ∧
    handshakeVersion (run Sys.init refusedRun) = "a" := by
  decide +kernel

/-- **C72 (violated).** Also without a refusal: a blocking log that is processed after the manager was updated and before the log
buffer takes the update asks for a buffer that no longer exists to be flushed; this ends the flush task for good. -/
theorem C72_race_violated :
    (run Sys.init [.start true yes true .ok, .server ⟨"a", some cfg1⟩ yes true .ok, .take,
      .server ⟨"c", some cfg3⟩ yes true .ok, .log yes none true good good none, .take,
      .log yes none true good good none]).flushAlive = false := by
  decide +kernel

/-- `C72_in_force_partial` is about histories like this one: applied, refused by the manager, applied, restarted. -/
example : (∀ e ∈ [Ev.start true yes true .ok, .server ⟨"a", some cfg1⟩ yes true .ok, .server ⟨"x", some cfg3⟩ (fun _ => false) true .ok,
      .take, .server ⟨"c", some cfg3⟩ yes true .ok, .start true yes true .ok], Clean e) ∧
    inForce none (obs Sys.init [Ev.start true yes true .ok, .server ⟨"a", some cfg1⟩ yes true .ok,
      .server ⟨"x", some cfg3⟩ (fun _ => false) true .ok, .take, .server ⟨"c", some cfg3⟩ yes true .ok, .start true yes true .ok])
      = some ⟨"c", some cfg3⟩ := by
  constructor
  · intro e he
    simp only [List.mem_cons, List.not_mem_nil, or_false] at he
    rcases he with rfl | rfl | rfl | rfl | rfl | rfl <;> simp [Clean, cfg1, cfg3]
  · decide +kernel

/-- `C72_refused_partial`: the manager refuses. -/
example : (step Sys.init (.server ⟨"x", some cfg3⟩ (fun _ => false) true .ok)).2 = [.answered ⟨"x", some cfg3⟩ ⟨some "x", "x"⟩] := by
  decide +kernel

/-! ### The flush task goes on -/

/-- Logs are processed only when the log buffer has taken all updates, and the engine flushes only buffers it has. -/
def Settled (s : Sys) : List Ev → Prop
  | [] => True
  | e :: es =>
    (match e with
      | .log _ g _ _ _ _ => s.chan = [] ∧ ∀ r, g = some r → ∀ id ∈ r.flushes, ∃ b ∈ s.mgr.bufs, b.id = id
      | _ => True) ∧ Settled (step s e).1 es

theorem finishBlocking_alive (e : Verif.Pipe.Env) (l : List Id) (ha : e.flushAlive = true) (h : ∀ i ∈ l, i ∈ ids e.mgr.bufs) :
    (Verif.Pipe.finishBlocking e l).2.1 = true := by
  unfold Verif.Pipe.finishBlocking
  cases hl : l.isEmpty with
  | true => simpa using ha
  | false =>
    simp only [Bool.false_eq_true, if_false, ha, if_true]
    have : (Verif.Mgr.flushReq e.mgr l).alive = true := by
      unfold Verif.Mgr.flushReq
      simp only [hl, Bool.false_eq_true, if_false]
      have := (Verif.Mgr.flushLoop_all e.mgr.bufs l h)
      cases hf : (Verif.Mgr.flushLoop e.mgr.bufs l).2 with
      | true => simp
      | false => simp_all
    split <;> exact this

theorem synthetic_mem (p : Verif.Pipe.Producers) (r : EngineResult) (b : Id) (h : Verif.Pipe.synthetic p r = some b) :
    b ∈ r.flushes := by
  unfold Verif.Pipe.synthetic at h
  split at h
  · cases h
  · simp only at h
    split at h
    · cases h
    · exact List.mem_of_mem_head? h

theorem process_alive (e : Verif.Pipe.Env) (l : List Id) (g : Option EngineResult) (b : Bool) (ha : e.flushAlive = true)
    (h : ∀ i ∈ l, i ∈ ids e.mgr.bufs) (hg : ∀ r, g = some r → ∀ i ∈ r.flushes, i ∈ ids e.mgr.bufs) :
    (Verif.Pipe.process e l g b).alive = true := by
  have hw : ∀ i ∈ (Verif.Pipe.writes e l g b).2.1, i ∈ ids e.mgr.bufs := by
    intro i hi
    unfold Verif.Pipe.writes at hi
    cases g with
    | none => exact h i hi
    | some r =>
      simp only at hi
      split at hi
      · split at hi
        · rename_i x hx
          rcases List.mem_append.mp hi with hi | hi
          · exact h i hi
          · rw [List.mem_singleton.mp hi]
            exact hg r rfl x (synthetic_mem _ _ _ hx)
        · exact h i hi
      · exact h i hi
  unfold Verif.Pipe.process
  simp only
  split
  · split
    · exact finishBlocking_alive e _ ha hw
    · exact ha
  · exact ha

/-- **C72 (partial).** If no configuration is refused after the manager was updated, and logs are processed only when all updates
have been taken, the flush task goes on for ever.  Missing: the two ways in which it ends (`C72_refused_flush_violated`,
`C72_race_violated`). -/
theorem C72_flush_partial (es : List Ev) (hc : ∀ e ∈ es, Clean e) (hs : Settled Sys.init es) :
    (run Sys.init es).flushAlive = true := by
  have gen : ∀ (es : List Ev) (s : Sys) (a : Option (Upd Cfg)), Match s a → s.flushAlive = true → (∀ e ∈ es, Clean e) → Settled s es →
      (run s es).flushAlive = true := by
    intro es
    induction es with
    | nil => intro s a _ h _ _; exact h
    | cons e es ih =>
      intro s a hm ha hc hs
      refine ih _ _ (step_match s e a hm (hc e List.mem_cons_self)) ?_ (fun e' he' => hc e' (List.mem_cons_of_mem _ he')) hs.2
      cases e with
      | start r ok po w =>
        simp only [step]
        split
        · split
          · rfl
          · rfl
          · rename_i u _
            rcases process_cases (restart s none) u ok po w with ⟨c, m', _, _, _, h1⟩ | ⟨_, m', h1, _⟩ <;> rw [h1] <;> rfl
        · rfl
      | server u ok po w =>
        simp only [step]
        rcases process_cases s u ok po w with ⟨c, m', _, _, _, h1⟩ | ⟨_, m', h1, _⟩ <;> rw [h1] <;> exact ha
      | take => simp only [step]; split <;> exact ha
      | drop x => exact ha
      | log m g b w w2 st =>
        simp only [step]
        split
        · exact ha
        · rename_i p hp
          obtain ⟨hch, hg⟩ := hs.1
          refine process_alive _ _ _ _ ha ?_ ?_
          · intro i hi
            rw [List.mem_eraseDups, List.mem_filter] at hi
            cases a with
            | none => have := (hm.nothing rfl).2.1; rw [this] at hp; exact nomatch hp
            | some u =>
              obtain ⟨c, q, _, hl, iu⟩ := hm.there u rfl
              simp only [latest, hch, List.getLast?_nil] at hl
              rw [hp] at hl
              cases hl
              have hsel := hi.1
              rw [iu.selector] at hsel
              obtain ⟨x, hx, rfl⟩ := List.mem_map.mp hsel
              obtain ⟨y, hy, hyx⟩ := (iu.buffers x.1.id).mpr ⟨x, hx, rfl⟩
              exact List.mem_map.mpr ⟨y, hy, hyx⟩
          · intro r hr i hi
            obtain ⟨y, hy, hyx⟩ := hg r hr i hi
            exact List.mem_map.mpr ⟨y, hy, hyx⟩
  exact gen es Sys.init none init_match rfl hc hs

example : Settled Sys.init [.start true yes true .ok, .server ⟨"a", some cfg1⟩ yes true .ok, .take, .log yes none true good good none,
    .server ⟨"c", some cfg3⟩ yes true .ok, .take, .log yes none true good good none] := by
  refine ⟨trivial, trivial, trivial, ⟨by decide +kernel, fun _ h => nomatch h⟩, trivial, trivial, ⟨by decide +kernel, fun _ h => nomatch h⟩, trivial⟩

/-! ### The cached file -/

/-- Writes work and the file can be read. -/
def Stores : Ev → Prop
  | .start r _ _ w => r = true ∧ w = .ok
  | .server _ _ _ w => w = .ok
  | _ => True

/-- **C72.** As long as files can be read and written, the configuration in force is the one that is cached. -/
theorem C72_cached (es : List Ev) (hs : ∀ e ∈ es, Stores e) (u : Upd Cfg) (h : inForce none (obs Sys.init es) = some u) :
    (run Sys.init es).file = some (some u) := by
  have hstep : ∀ (s : Sys) (e : Ev) (a : Option (Upd Cfg)), Stores e → (∀ u, a = some u → s.file = some (some u)) →
      ∀ u, inForce a (step s e).2 = some u → (step s e).1.file = some (some u) := by
    intro s e a hs ha u hu
    cases e with
    | start r ok po w =>
      obtain ⟨h1, h2⟩ := hs
      subst h1 h2
      simp only [step, if_true] at hu ⊢
      split
      · rename_i hf; simp only [hf] at hu; simp [inForce] at hu
      · rename_i hf; simp only [hf] at hu; simp [inForce] at hu
      · rename_i u' hf
        simp only [hf] at hu
        rcases process_cases (restart s none) u' ok po .ok with ⟨c, m', _, h2, _, h1⟩ | ⟨h2, m', h1, _⟩
        · simp only [h2, if_true, inForce, Option.some.injEq] at hu
          rw [h1, hu]; rfl
        · simp [h2, inForce] at hu
    | server u' ok po w =>
      cases hs
      simp only [step] at hu ⊢
      rcases process_cases s u' ok po .ok with ⟨c, m', _, h2, _, h1⟩ | ⟨h2, m', h1, _⟩
      · simp only [h2, if_true, inForce, Option.some.injEq] at hu
        rw [h1, hu]; rfl
      · simp only [h2, Bool.false_eq_true, if_false, inForce, reduceCtorEq] at hu
        rw [h1]; exact ha u hu
    | take =>
      simp only [step] at hu ⊢
      split <;> rename_i hc <;> simp only [hc, inForce] at hu <;> exact ha u hu
    | log m g b w w2 st =>
      simp only [step] at hu ⊢
      split <;> rename_i hc <;> simp only [hc, inForce] at hu <;> exact ha u hu
    | drop x => exact ha u hu
  have gen : ∀ (es : List Ev) (s : Sys) (a : Option (Upd Cfg)), (∀ e ∈ es, Stores e) → (∀ u, a = some u → s.file = some (some u)) →
      ∀ u, inForce a (obs s es) = some u → (run s es).file = some (some u) := by
    intro es
    induction es with
    | nil => intro s a _ ha u hu; exact ha u hu
    | cons e es ih =>
      intro s a hs ha u hu
      simp only [obs, inForce_append] at hu
      exact ih _ _ (fun e' he' => hs e' (List.mem_cons_of_mem _ he')) (hstep s e a (hs e List.mem_cons_self) ha) u hu
  exact gen es Sys.init none hs (fun _ h => nomatch h) u h

/-- What a write of the cached file leaves: the new content, the one of before if it fails, one that cannot be read if it is torn. -/
def after (before : Option (Option (Upd Cfg))) (u : Upd Cfg) (w : Wr) : Option (Option (Upd Cfg)) :=
  if w = .ok then some (some u) else if w = .fail then before else some none

theorem process_file (s : Sys) (u : Upd Cfg) (ok : Id → Bool) (po : Bool) (w : Wr) :
    (process s u ok po w).1.file =
      if (process s u ok po w).2 = true then after s.file u w else s.file := by
  have ha : ∀ c, (apply s c ok po).1.file = s.file := by
    intro c
    simp only [apply]
    split
    · split <;> rfl
    · rfl
  unfold process
  cases hc : u.cfg with
  | none => simp
  | some c =>
    simp only
    by_cases h : (apply s c ok po).2 = true
    · rw [if_pos h]
      simp only [if_true, ha]
      cases w <;> rfl
    · rw [if_neg h]
      simp [ha]

/-- C72: what the cached file is after an update of the server.  A refused one leaves the file; an accepted one replaces it, leaves it if the
write fails, and leaves one that cannot be read if the write is torn. -/
theorem C72_stored (s : Sys) (u : Upd Cfg) (ok : Id → Bool) (po : Bool) (w : Wr) (a : Ack)
    (h : (step s (.server u ok po w)).2 = [.answered u a]) :
    (step s (.server u ok po w)).1.file =
      if a.nack = none then after s.file u w else s.file := by
  simp only [step, List.cons.injEq, Obs.answered.injEq, true_and, and_true] at h ⊢
  rw [process_file, ← h]
  by_cases hp : (process s u ok po w).2 = true
  · simp [hp]
  · simp [hp]

/-- C72: what the cached file is after a start.  If it cannot be read or removed it stays and nothing is applied; otherwise it is gone unless
the configuration in it is applied and written again. -/
theorem C72_started (s : Sys) (r : Bool) (ok : Id → Bool) (po : Bool) (w : Wr) :
    (r = false → (step s (.start r ok po w)).2 = [.started] ∧ (step s (.start r ok po w)).1.file = s.file) ∧
    (r = true → (∀ u, Obs.loaded u ∈ (step s (.start r ok po w)).2 → s.file = some (some u) ∧
        (step s (.start r ok po w)).1.file = after none u w) ∧
      ((∀ u, Obs.loaded u ∉ (step s (.start r ok po w)).2) → (step s (.start r ok po w)).1.file = none)) := by
  constructor
  · rintro rfl
    exact ⟨rfl, rfl⟩
  · rintro rfl
    simp only [step, if_true]
    cases hf : s.file with
    | none => exact ⟨fun u hu => by simp at hu, fun _ => rfl⟩
    | some f => cases f with
      | none => exact ⟨fun u hu => by simp at hu, fun _ => rfl⟩
      | some v =>
        simp only
        by_cases hp : (process (restart s none) v ok po w).2 = true
        · refine ⟨fun u hu => ?_, fun hn => absurd (by simp [hp]) (hn v)⟩
          rw [if_pos hp] at hu
          simp only [List.mem_cons, reduceCtorEq, Obs.loaded.injEq, List.not_mem_nil, or_false, false_or] at hu
          subst hu
          refine ⟨rfl, ?_⟩
          rw [process_file, if_pos hp]
          rfl
        · refine ⟨fun u hu => ?_, fun _ => ?_⟩
          · rw [if_neg hp] at hu
            simp at hu
          · rw [process_file, if_neg hp]
            rfl

/-- Updates and starts for `C72_stored` and `C72_started`: a torn write, after which the next start has nothing, and a failed one. -/
example :
    let s := run Sys.init [.start true yes true .ok, .server ⟨"a", some cfg1⟩ yes true .ok]
    s.file = some (some ⟨"a", some cfg1⟩) ∧
    (step s (.server ⟨"c", some cfg3⟩ yes true .torn)).2 = [.answered ⟨"c", some cfg3⟩ ⟨none, "c"⟩] ∧
    (step s (.server ⟨"c", some cfg3⟩ yes true .torn)).1.file = some none ∧
    (step s (.server ⟨"c", some cfg3⟩ yes true .fail)).1.file = some (some ⟨"a", some cfg1⟩) ∧
    (step s (.start true yes true .fail)).2 = [.started, .loaded ⟨"a", some cfg1⟩] ∧ (step s (.start true yes true .fail)).1.file = none := by
  decide +kernel

end Verif.Conf
