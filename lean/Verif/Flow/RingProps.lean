import Verif.Flow.Ring
import Verif.Buffer.AggregateProps
import Verif.Upload.ContinuousProps

/-
C98: the continuous uploader on the byte level rings.
-/
namespace Verif.Ring

open Verif.Buffer
open Verif.Upload (CU CEv UpResult Limits Phase)

/-! ### Calls on the file -/

theorem after_snoc (K : Crc) (n : Nat) (crc : Bool) (L : List NOp) (op : NOp) :
    nvAfter K n crc false true (L ++ [op]) = ((nvAfter K n crc false true L).step K op).1 := by
  unfold nvAfter
  rw [nv_run_append]
  rfl

theorem hist_snoc (K : Crc) (n : Nat) (crc : Bool) (L : List NOp) (op : NOp) :
    nvHistory K n crc false true (L ++ [op]) =
      (nvHistory K n crc false true L).step crc op ((nvAfter K n crc false true L).step K op).2 := by
  unfold nvHistory nvAfter
  rw [ntrace_append]
  rfl

theorem noZero_snoc {K : Crc} (L : List NOp) (op : NOp) : ∀ {s : NV}, NoZero K s L →
    ((op = .dropProducer ∨ op = .restart) → ∀ r, (s.run K L).1.producer ≠ some (some r)) → NoZero K s (L ++ [op]) := by
  induction L with
  | nil => intro s _ h; exact ⟨fun ho r hr => absurd hr (h ho r), trivial⟩
  | cons x L ih => intro s hz h; exact ⟨hz.1, ih hz.2 h⟩

/-- The calls of the others leave the reader's side alone. -/
structure Aside (t t' : NTrace) : Prop where
  taken : t'.taken = t.taken
  ahead : t'.ahead = t.ahead
  cursor : t'.cursor = t.cursor
  reading : t'.reading = t.reading
  holed : t'.holed = t.holed
  calm : t'.calm = t.calm

/-- Calls that are not the uploader's. -/
def aside : NOp → Bool
  | .registerProducer | .dropProducer | .reserve .. | .resume | .write .. | .commit | .waitForDrain | .shutdown => true
  | _ => false

theorem aside_step (crc : Bool) (t : NTrace) (op : NOp) (o : Out) (h : aside op = true)
    (hd : op = .dropProducer → t.pending = none) : Aside t (t.step crc op o) := by
  cases op with
  | dropProducer =>
    have := hd rfl
    unfold NTrace.step
    split <;> constructor <;> simp_all
  | registerProducer => exact ⟨rfl, rfl, rfl, rfl, rfl, rfl⟩
  | reserve _ _ => unfold NTrace.step; split <;> constructor <;> simp_all
  | resume => unfold NTrace.step; split <;> constructor <;> simp_all
  | write _ _ => unfold NTrace.step; split <;> constructor <;> simp_all
  | commit => unfold NTrace.step; split <;> constructor <;> simp_all
  | waitForDrain => exact ⟨rfl, rfl, rfl, rfl, rfl, rfl⟩
  | shutdown => exact ⟨rfl, rfl, rfl, rfl, rfl, rfl⟩
  | _ => cases h

theorem pc_step (crc : Bool) {t t' : NTrace} {C : List (List (Option UInt8))} (h : t.pending = t'.pending)
    (hc : t.committed = C ++ t'.committed) (op : NOp) (o : Out) :
    (t.step crc op o).pending = (t'.step crc op o).pending ∧
    (t.step crc op o).committed = C ++ (t'.step crc op o).committed := by
  unfold NTrace.step
  split <;> simp_all

theorem pc_run (crc : Bool) (C : List (List (Option UInt8))) (ops : List NOp) : ∀ (os : List Out) {t t' : NTrace}, t.pending = t'.pending →
    t.committed = C ++ t'.committed →
    (t.run crc ops os).pending = (t'.run crc ops os).pending ∧
    (t.run crc ops os).committed = C ++ (t'.run crc ops os).committed := by
  induction ops with
  | nil => intro os t t' h hc; cases os <;> exact ⟨h, hc⟩
  | cons op ops ih =>
    intro os t t' h hc
    cases os with
    | nil => exact ⟨h, hc⟩
    | cons o os =>
      obtain ⟨h1, h2⟩ := pc_step crc h hc op o
      exact ih os h1 h2

/-- At most one call on the file, none of the uploader's. -/
def Shape (K : Crc) (a a' : Agg) : Prop :=
  (a'.nv = a.nv ∧ a'.nlog = a.nlog) ∨
  ∃ nop, a'.nv = (a.nv.step K nop).1 ∧ a'.nlog = a.nlog ++ [(nop, (a.nv.step K nop).2)] ∧
    aside nop = true ∧ (nop = .dropProducer → a.stage = .leaving)

theorem agg_shape (K : Crc) (a : Agg) (op : AOp) (h : AOp.others op = true) : Shape K a (a.step K op) := by
  have fst : ∀ {x : Agg × Out} {b : Agg} {o : Out}, x = (b, o) → b = x.1 := by
    intro x b o e; rw [e]
  have n : ∀ (nop : NOp) (st : Stage), aside nop = true → (nop = .dropProducer → a.stage = .leaving) →
      Shape K a ((a.onNV K nop).1.goto st) := fun nop st h1 h2 => .inr ⟨nop, rfl, rfl, h1, h2⟩
  have v : ∀ (op : Op) (st : Stage), Shape K a ((a.onVol op).1.goto st) := fun op st => .inl ⟨rfl, rfl⟩
  cases op with
  | vol op =>
    simp only [Agg.step]
    split
    · exact .inl ⟨rfl, rfl⟩
    · exact .inl ⟨rfl, rfl⟩
  | nv op =>
    simp only [Agg.step]
    split
    · refine .inr ⟨op, rfl, rfl, ?_, ?_⟩
      · cases op <;> first | rfl | cases h
      · rintro rfl; cases h
    · exact .inl ⟨rfl, rfl⟩
  | stop => exact .inl ⟨rfl, rfl⟩
  | thread =>
    show Shape K a (a.thread K)
    unfold Agg.thread
    split
    · split <;> (rename_i e; rw [fst e]; exact v _ _)
    · split <;> (rename_i e; rw [fst e]; exact n _ _ rfl (by simp))
    · split
      · exact .inl ⟨rfl, rfl⟩
      · split
        · rename_i e; rw [fst e]; exact v _ _
        · rename_i e; rw [fst e]; exact v (.startRead true) a.stage
        · rename_i e; rw [fst e]; exact v _ _
    · exact n _ _ rfl (by simp)
    · exact n _ _ rfl (by simp)
    · split <;> (rename_i e; rw [fst e]; exact n _ _ rfl (by simp))
    · split <;> (rename_i e; rw [fst e]; exact n _ _ rfl (by simp))
    · split <;> (rename_i e; rw [fst e]; exact v _ _)
    · rename_i hs; exact n _ _ rfl (fun _ => hs)
    · exact v _ _
    · exact .inl ⟨rfl, rfl⟩
    · exact .inl ⟨rfl, rfl⟩

/-! ### The invariant -/

structure Cfg.Sane (c : Cfg) : Prop where
  vlen : c.vlen < 2 ^ 32
  nlen : c.nlen < 2 ^ 32
  fits : c.vlen ≤ c.nlen

/-- What the uploader thinks of the buffer is right. -/
def UpOk (u : CU) (h : NTrace) : Prop :=
  match u.phase with
  | .stopped => h.cursor = false
  | .collecting => h.cursor = true ∧ u.pos = h.taken.length + h.ahead.length ∧ u.batch.length ≤ h.ahead.length
  | .uploading logs => h.cursor = true ∧ u.pos = h.taken.length + h.ahead.length ∧ u.batch = [] ∧ logs.length ≤ h.ahead.length
  | .acking k => h.cursor = true ∧ u.pos = h.taken.length + h.ahead.length ∧ u.batch = [] ∧ k ≤ h.ahead.length

structure RInv (c : Cfg) (s : Sys) : Prop where
  opened : Opened s.pre
  pend0 : (nvHistory c.K c.nlen c.crc false true s.pre).pending = none
  full0 : ∀ d ∈ (nvHistory c.K c.nlen c.crc false true s.pre).committed, ∃ bs : List UInt8, d = bs.map some
  run : ∃ mem ops, s.agg = (Ring.opened c mem (nvAfter c.K c.nlen c.crc false true s.pre)).run c.K ops
  zero : NoZero c.K (NV.new c.K c.nlen c.crc false true) s.calls
  calm : (s.hist c).calm = true
  holed : (s.hist c).holed = false
  reading : (s.hist c).reading = none
  acked : s.up.acked = (s.hist c).taken.length
  up : UpOk s.up (s.hist c)

theorem nvHistory_prefix {K : Crc} {n : Nat} {crc : Bool} (l l' : List NOp)
    (h : (nvHistory K n crc false true (l ++ l')).calm = true) : (nvHistory K n crc false true l).calm = true := by
  unfold nvHistory at h ⊢
  rw [ntrace_append] at h
  exact ntrace_calm _ _ _ _ h

theorem RInv.state {c : Cfg} {s : Sys} (h : RInv c s) (hc : c.Sane) :
    let s0 := nvAfter c.K c.nlen c.crc false true s.pre
    s0.producer = none ∧ s0.parked = none := by
  intro s0
  have := opened_state h.opened (K := c.K) (nlen := c.nlen) (crc := c.crc) (ow := false) (fun p p' e => by
    have hz := h.zero
    have hcm := h.calm
    unfold Sys.hist at hcm
    unfold Sys.calls at hz hcm
    rw [e, List.append_assoc] at hz hcm
    obtain ⟨q, hq, _⟩ := nv_reach c.K c.nlen hc.nlen c.crc true p (noZero_prefix _ _ hz) (nvHistory_prefix _ _ hcm)
    exact ⟨q, hq⟩)
  exact ⟨this.1, this.2.1⟩

theorem opened_new {c : Cfg} (hc : c.Sane) (mem : Mem) (nv : NV) :
    Agg.new c.vlen (c.nlen + 40) mem nv = some (Ring.opened c mem nv) := by
  unfold Agg.new Ring.opened
  rw [if_neg]
  have := hc.fits
  omega

theorem RInv.ainv {c : Cfg} {s : Sys} (h : RInv c s) (hc : c.Sane) :
    ∃ mem, AInv c.K c.vlen mem (nvAfter c.K c.nlen c.crc false true s.pre) s.agg := by
  obtain ⟨mem, ops, he⟩ := h.run
  obtain ⟨h1, h2⟩ := h.state hc
  refine ⟨mem, ?_⟩
  rw [he]
  exact AInv.run hc.vlen ops (AInv.init c.K c.vlen (c.nlen + 40) mem _ _ (opened_new hc mem _) h1 h2)

theorem nvAfter_crc (K : Crc) (n : Nat) (crc : Bool) (L : List NOp) : (nvAfter K n crc false true L).crc = crc :=
  congrArg (fun x => x.1) (run_cfg K L (NV.new K n crc false true))

theorem RInv.nv {c : Cfg} {s : Sys} (h : RInv c s) (hc : c.Sane) :
    s.agg.nv = nvAfter c.K c.nlen c.crc false true s.calls := by
  obtain ⟨mem, ha⟩ := h.ainv hc
  have := ha.log.nv
  unfold Sys.calls
  unfold nvAfter at this ⊢
  rw [nv_run_append]
  rw [this]

/-- What the file knows is what it knew when it was opened and what this process did. -/
theorem RInv.split {c : Cfg} {s : Sys} (h : RInv c s) (hc : c.Sane) :
    (s.hist c).pending = s.agg.stored.pending ∧
    (s.hist c).committed = (nvHistory c.K c.nlen c.crc false true s.pre).committed ++ s.agg.stored.committed := by
  obtain ⟨mem, ha⟩ := h.ainv hc
  have e : s.hist c = (nvHistory c.K c.nlen c.crc false true s.pre).run c.crc (s.agg.nlog.map (·.1)) (s.agg.nlog.map (·.2)) := by
    unfold Sys.hist Sys.calls nvHistory
    rw [ntrace_append]
    have := ha.log.nv
    unfold nvAfter at this
    rw [this]
  rw [e]
  unfold Agg.stored
  rw [ha.log.crc, nvAfter_crc]
  exact pc_run c.crc _ _ _ h.pend0 (by simp [NTrace.empty])

theorem RInv.full {c : Cfg} {s : Sys} (h : RInv c s) (hc : c.Sane) :
    ∀ d ∈ (s.hist c).committed, ∃ bs : List UInt8, d = bs.map some := by
  obtain ⟨mem, ha⟩ := h.ainv hc
  obtain ⟨disk, refused, lost, live, hl⟩ := ha.ledger hc.vlen
  intro d hd
  rw [(h.split hc).2, List.mem_append] at hd
  rcases hd with hd | hd
  · exact h.full0 d hd
  · obtain ⟨i, hi, hr⟩ := List.mem_iff_getElem.1 hd
    have := List.forall₂_iff_get.1 hl.copied
    have h2 := this.2 i hi (by rw [← this.1]; exact hi)
    simp only [List.get_eq_getElem, hr] at h2
    obtain ⟨g, bs, _, _, _, he⟩ := h2
    exact ⟨bs, he⟩

/-- The file after one more call. -/
theorem hist_call {c : Cfg} {s s' : Sys} (hn : s.agg.nv = nvAfter c.K c.nlen c.crc false true s.calls) (hp : s'.pre = s.pre) (op : NOp)
    (hl : s'.agg.nlog = s.agg.nlog ++ [(op, (s.agg.nv.step c.K op).2)]) :
    s'.calls = s.calls ++ [op] ∧ s'.hist c = (s.hist c).step c.crc op (s.agg.nv.step c.K op).2 := by
  have e : s'.calls = s.calls ++ [op] := by
    unfold Sys.calls
    rw [hp, hl, List.map_append, List.append_assoc]
    rfl
  refine ⟨e, ?_⟩
  unfold Sys.hist
  rw [e, hist_snoc, ← hn]

theorem agg_run_snoc (K : Crc) (ops : List AOp) (op : AOp) : ∀ a : Agg, a.run K (ops ++ [op]) = (a.run K ops).step K op := by
  induction ops with
  | nil => intro a; rfl
  | cons o ops ih => intro a; exact ih _

/-- A call of the uploader. -/
theorem RInv.call {c : Cfg} {s : Sys} (h : RInv c s) (hc : c.Sane) (op : NOp) (hu : op.byUser false = true) (u : CU)
    (h' : NTrace) (he : h' = (s.hist c).step c.crc op (s.agg.nv.step c.K op).2)
    (hcalm : h'.calm = true) (hholed : h'.holed = false) (hread : h'.reading = none)
    (hack : u.acked = h'.taken.length) (hup : UpOk u h') :
    RInv c { s with agg := (s.agg.onNV c.K op).1, up := u } ∧
    Sys.hist c { s with agg := (s.agg.onNV c.K op).1, up := u } = h' := by
  let s' : Sys := { s with agg := (s.agg.onNV c.K op).1, up := u }
  obtain ⟨e1, e2⟩ := hist_call (s' := s') (h.nv hc) rfl op rfl
  rw [← he] at e2
  refine ⟨⟨h.opened, h.pend0, h.full0, ?_, ?_, ?_, ?_, ?_, ?_, ?_⟩, e2⟩
  · obtain ⟨mem, ops, hr⟩ := h.run
    refine ⟨mem, ops ++ [.nv op], ?_⟩
    show (s.agg.onNV c.K op).1 = _
    rw [agg_run_snoc, ← hr]
    show _ = if op.byUser s.agg.flag then (s.agg.onNV c.K op).1 else s.agg
    rw [if_pos]
    cases op <;> first | rfl | cases hu
  · show NoZero c.K _ s'.calls
    rw [e1]
    refine noZero_snoc _ _ h.zero ?_
    rintro (rfl | rfl) <;> cases hu
  · rw [show Sys.hist c { s with agg := (s.agg.onNV c.K op).1, up := u } = h' from e2]; exact hcalm
  · rw [show Sys.hist c { s with agg := (s.agg.onNV c.K op).1, up := u } = h' from e2]; exact hholed
  · rw [show Sys.hist c { s with agg := (s.agg.onNV c.K op).1, up := u } = h' from e2]; exact hread
  · rw [show Sys.hist c { s with agg := (s.agg.onNV c.K op).1, up := u } = h' from e2]; exact hack
  · rw [show Sys.hist c { s with agg := (s.agg.onNV c.K op).1, up := u } = h' from e2]; exact hup

/-- A step of the uploader without a call. -/
theorem RInv.quiet {c : Cfg} {s : Sys} (h : RInv c s) (u : CU) (hack : u.acked = s.up.acked) (hup : UpOk u (s.hist c)) :
    RInv c { s with up := u } :=
  ⟨h.opened, h.pend0, h.full0, h.run, h.zero, h.calm, h.holed, h.reading, hack.trans h.acked, hup⟩

/-- The bytes of the records in the file, from the beginning. -/
def bytes (d : List (Option UInt8)) : List Nat := d.map fun o => (o.getD 0).toNat

/-- The uploader on a list of logs that this system looks like. -/
def Sys.view (c : Cfg) (s : Sys) : CU := { s.up with written := (s.hist c).committed.map bytes }

/-- The event of the uploader on a list. -/
def Ev.cu : Ev → Option CEv
  | .agg _ => none
  | .start => some .start
  | .read l => some (.read l)
  | .deadline => some .deadline
  | .flag l => some (.flag l)
  | .result r => some (.result r)
  | .advance => some .advance
  | .shut => some .shut
  | .stop => some .stop
  | .abortStop => some .abortStop
  | .abortGo => some .abortGo
  | .reopen _ => some .kill

/-- What is asked of an event: the process does not end between `reserve` and `commit` of the flush thread, and an uploader is not
started in a process in which one went away with records read and not acknowledged. -/
def Sys.ok (c : Cfg) (s : Sys) : Ev → Prop
  | .reopen _ => (s.hist c).pending = none
  | .start => s.up.phase = .stopped → (s.hist c).fresh = true
  | _ => True

/-- One step looks like a step of the uploader on a list, or a write, or nothing. -/
structure Matches (c : Cfg) (s s' : Sys) (e : Ev) : Prop where
  inv : RInv c s'
  view : ∃ es, s'.view c = (s.view c).run es ∧ ∀ x ∈ es, (∃ d, x = .write d) ∨ Ev.cu e = some x

theorem Matches.none {c : Cfg} {s : Sys} (h : RInv c s) (e : Ev) : Matches c s s e := ⟨h, [], rfl, by simp⟩

theorem Matches.one {c : Cfg} {s s' : Sys} {e : Ev} (h : RInv c s') (x : CEv) (hx : Ev.cu e = some x)
    (hv : s'.view c = (s.view c).step x) : Matches c s s' e := ⟨h, [x], hv, by simp [hx]⟩

theorem agg_matches {c : Cfg} {s : Sys} (h : RInv c s) (hc : c.Sane) (op : AOp) (ho : AOp.others op = true) :
    Matches c s { s with agg := s.agg.step c.K op } (.agg op) := by
  have hrun : ∃ mem ops, s.agg.step c.K op = (Ring.opened c mem (nvAfter c.K c.nlen c.crc false true s.pre)).run c.K ops := by
    obtain ⟨mem, ops, hr⟩ := h.run
    exact ⟨mem, ops ++ [op], by rw [agg_run_snoc, ← hr]⟩
  rcases agg_shape c.K s.agg op ho with ⟨h1, h2⟩ | ⟨nop, h1, h2, h3, h4⟩
  · have e : Sys.calls { s with agg := s.agg.step c.K op } = s.calls := by
      unfold Sys.calls; rw [h2]
    have e2 : Sys.hist c { s with agg := s.agg.step c.K op } = s.hist c := by unfold Sys.hist; rw [e]
    refine ⟨⟨h.opened, h.pend0, h.full0, hrun, by rw [e]; exact h.zero, by rw [e2]; exact h.calm, by rw [e2]; exact h.holed,
      by rw [e2]; exact h.reading, by rw [e2]; exact h.acked, by rw [e2]; exact h.up⟩, [], ?_, by simp⟩
    unfold Sys.view
    rw [e2]
    rfl
  · obtain ⟨e1, e2⟩ := hist_call (s' := { s with agg := s.agg.step c.K op }) (h.nv hc) rfl nop h2
    have hd : nop = .dropProducer → (s.hist c).pending = none ∧ ∀ r, s.agg.nv.producer ≠ some (some r) := by
      intro hn
      have hst := h4 hn
      obtain ⟨mem, ha⟩ := h.ainv hc
      have hk := ha.ok
      rw [hst] at hk
      obtain ⟨⟨k1, k2, k3⟩, _⟩ := hk
      exact ⟨(h.split hc).1.trans k3, fun r hr => by rw [k1] at hr; cases hr⟩
    have hA := aside_step c.crc (s.hist c) nop (s.agg.nv.step c.K nop).2 h3 (fun hn => (hd hn).1)
    rw [← e2] at hA
    have hz : NoZero c.K (NV.new c.K c.nlen c.crc false true) (Sys.calls { s with agg := s.agg.step c.K op }) := by
      rw [e1]
      refine noZero_snoc _ _ h.zero ?_
      have hn := h.nv hc
      unfold nvAfter at hn
      rw [← hn]
      rintro (rfl | rfl)
      · exact (hd rfl).2
      · cases h3
    have hi : RInv c { s with agg := s.agg.step c.K op } := by
      refine ⟨h.opened, h.pend0, h.full0, hrun, hz, hA.calm.trans h.calm, hA.holed.trans h.holed, hA.reading.trans h.reading,
        by rw [hA.taken]; exact h.acked, ?_⟩
      have := h.up
      unfold UpOk at this ⊢
      rw [hA.cursor, hA.taken, hA.ahead]
      exact this
    refine ⟨hi, ?_⟩
    have hcm : (Sys.hist c { s with agg := s.agg.step c.K op }).committed = (s.hist c).committed ∨
        ∃ d, (Sys.hist c { s with agg := s.agg.step c.K op }).committed = (s.hist c).committed ++ [d] := by
      rw [e2]
      cases nop with
      | commit =>
        unfold NTrace.step
        split <;> try exact .inl rfl
        cases hpd : (s.hist c).pending with
        | none => left; simp
        | some d => right; exact ⟨d, by simp⟩
      | _ =>
        left
        unfold NTrace.step
        split <;> simp_all [aside]
    rcases hcm with hcm | ⟨d, hcm⟩
    · refine ⟨[], ?_, by simp⟩
      unfold Sys.view
      rw [hcm]
      rfl
    · refine ⟨[.write (bytes d)], ?_, by simp⟩
      unfold Sys.view
      rw [hcm, List.map_append]
      rfl

/-! ### The uploader -/

theorem view_check (u : CU) (w : List (List Nat)) (l : Limits) :
    ({ CU.check u l with written := w } : CU) = CU.check { u with written := w } l := by
  unfold CU.check CU.limit CU.flush CU.arm
  simp only
  repeat' split
  all_goals first | rfl | simp_all

theorem upOk_flush {u : CU} {h : NTrace} (hp : u.phase = .collecting) (hu : UpOk u h) : UpOk u.flush h := by
  unfold UpOk at hu
  rw [hp] at hu
  exact ⟨hu.1, hu.2.1, rfl, hu.2.2⟩

theorem upOk_check {u : CU} {h : NTrace} (l : Limits) (hp : u.phase = .collecting) (hu : UpOk u h) : UpOk (u.check l) h := by
  unfold CU.check
  split
  · exact upOk_flush hp hu
  · unfold CU.arm
    split
    · exact hu
    · unfold UpOk at hu ⊢
      rw [hp] at hu
      simp only [hp]
      exact hu

theorem check_acked (u : CU) (l : Limits) : (u.check l).acked = u.acked := by
  unfold CU.check CU.flush CU.arm
  repeat' split
  all_goals rfl

theorem quiet_matches {c : Cfg} {s : Sys} (h : RInv c s) (u : CU) (hack : u.acked = s.up.acked) (hup : UpOk u (s.hist c))
    (e : Ev) (x : CEv) (hx : Ev.cu e = some x)
    (hv : ({ u with written := (s.hist c).committed.map bytes } : CU) = (s.view c).step x) :
    Matches c s { s with up := u } e := Matches.one (h.quiet u hack hup) x hx hv

/-- The uploader goes away. -/
theorem drop_matches {c : Cfg} {s : Sys} (h : RInv c s) (hc : c.Sane) (e : Ev) (x : CEv) (hx : Ev.cu e = some x)
    (hv : ({ s.up with phase := .stopped, written := (s.hist c).committed.map bytes } : CU) = (s.view c).step x) :
    Matches c s { s with agg := (s.agg.onNV c.K .dropConsumer).1, up := { s.up with phase := .stopped } } e := by
  have ho : (s.agg.nv.step c.K .dropConsumer).2 = .unit (.ok ()) := by
    simp only [NV.step, NOp.usesProducer, Bool.and_false, Bool.false_eq_true, if_false, NV.step']
  obtain ⟨h1, h2⟩ := h.call hc .dropConsumer rfl { s.up with phase := .stopped }
    { s.hist c with reading := none, ahead := [], cursor := false, fresh := (s.hist c).fresh && (s.hist c).ahead.isEmpty
                    calm := (s.hist c).calm && ((s.hist c).reading.isNone || !c.crc) } rfl
    (by simp [h.calm, h.reading]) h.holed rfl h.acked rfl
  refine Matches.one h1 x hx ?_
  rw [← hv]
  unfold Sys.view
  rw [h2]

theorem step_matches {c : Cfg} {s : Sys} (h : RInv c s) (hc : c.Sane) (e : Ev) (hok : s.ok c e) :
    Matches c s (s.step c e) e := by
  have hup := h.up
  cases e with
  | agg op =>
    simp only [Sys.step]
    split
    · rename_i ho; exact agg_matches h hc op ho
    · exact .none h _
  | start =>
    cases hp : s.up.phase with
    | stopped =>
      simp only [Sys.step, hp]
      have hfr : (s.hist c).fresh = true := hok hp
      have hcur : (s.hist c).cursor = false := by unfold UpOk at hup; rw [hp] at hup; exact hup
      obtain ⟨q, hq, hno, _⟩ := nv_reach c.K c.nlen hc.nlen c.crc true s.calls h.zero h.calm
      have hah : (s.hist c).ahead = [] := by
        have := hno.cursor
        split at this
        · rw [show nvHistory c.K c.nlen c.crc false true s.calls = s.hist c from rfl, hcur] at this; cases this.1
        · exact this.2
      split
      · rename_i a hr
        have ha : a = (s.agg.onNV c.K .registerCursor).1 := by rw [hr]
        have hou : (s.agg.nv.step c.K .registerCursor).2 = .unit (.ok ()) := congrArg Prod.snd hr
        subst ha
        obtain ⟨h1, h2⟩ := h.call hc .registerCursor rfl
          { s.up with pos := s.up.acked, batch := [], armed := false, phase := .collecting, shutdown := false }
          { s.hist c with cursor := true, calm := (s.hist c).calm && (s.hist c).fresh && !(s.hist c).holed }
          (by rw [hou]; rfl) (by simp [h.calm, hfr, h.holed]) h.holed h.reading h.acked
          (by refine ⟨rfl, ?_, Nat.zero_le _⟩; show s.up.acked = _; rw [h.acked, hah]; rfl)
        refine Matches.one h1 .start rfl ?_
        unfold Sys.view
        rw [h2]
        simp only [CU.step, hp]
      · rename_i a o hno hr
        have ha : a = (s.agg.onNV c.K .registerCursor).1 := by rw [hr]
        have hou : (s.agg.nv.step c.K .registerCursor).2 = o := congrArg Prod.snd hr
        subst ha
        have hst : (s.hist c).step c.crc .registerCursor o = s.hist c := by
          unfold NTrace.step
          split <;> simp_all
        obtain ⟨h1, h2⟩ := h.call hc .registerCursor rfl s.up (s.hist c) (by rw [hou, hst]) h.calm h.holed h.reading h.acked hup
        refine ⟨h1, [], ?_, by simp⟩
        unfold Sys.view
        rw [h2]
        rfl
    | _ => simp only [Sys.step, hp]; exact .none h _
  | read l =>
    cases hp : s.up.phase with
    | collecting =>
      simp only [Sys.step, hp]
      have hU := hup
      unfold UpOk at hU
      rw [hp] at hU
      obtain ⟨u1, u2, u3⟩ := hU
      obtain ⟨c1, c2, c3, c4, c5, c6⟩ := C06_cursor_partial c.K c.nlen hc.nlen c.crc true s.calls h.zero h.calm u1
      rw [← h.nv hc] at c3 c4
      have hs : s.agg.nv.step c.K (.cursorRead false) =
          ((s.agg.nv.cursorRead c.K false).1, .record (s.agg.nv.cursorRead c.K false).2) := by
        simp only [NV.step, NOp.usesProducer, Bool.and_false, Bool.false_eq_true, if_false, NV.step']
      split
      · rename_i a x hr
        have ha : a = (s.agg.onNV c.K (.cursorRead false)).1 := by rw [hr]
        have hou : (s.agg.nv.step c.K (.cursorRead false)).2 = .record (.ok x) := congrArg Prod.snd hr
        subst ha
        cases hd : (s.hist c).committed[(s.hist c).taken.length + (s.hist c).ahead.length]? with
        | none =>
          obtain ⟨s', he⟩ := c4 hd
          rw [hs, he] at hou
          cases hou
        | some d =>
          obtain ⟨s', x', he, hsx, _⟩ := c3 d hd
          rw [hs, he] at hou
          cases hou
          obtain ⟨bs, rfl⟩ := h.full hc d (List.mem_of_getElem? hd)
          have hx : x.2 = bs := by
            apply List.ext_getElem?
            intro k
            by_cases hk : k < bs.length
            · rw [hsx.2 k bs[k] (by simp [hk])]
              simp [hk]
            · have hl := hsx.1
              rw [List.length_map] at hl
              rw [List.getElem?_eq_none (by omega), List.getElem?_eq_none (by omega)]
          obtain ⟨h1, h2⟩ := h.call hc (.cursorRead false) rfl
            (CU.check { s.up with batch := s.up.batch ++ [(s.up.pos, x.2.map UInt8.toNat)], pos := s.up.pos + 1 } l)
            { s.hist c with ahead := (s.hist c).ahead ++ [x.2] }
            (by rw [hs, he]; rfl) h.calm h.holed h.reading (by rw [check_acked]; exact h.acked)
            (by
              refine upOk_check l hp ?_
              unfold UpOk
              rw [hp]
              refine ⟨u1, ?_, ?_⟩
              · show s.up.pos + 1 = _; rw [u2]; simp; omega
              · simp; exact u3)
          rw [show ({ s.up with batch := s.up.batch ++ [(s.up.pos, x.2.map UInt8.toNat)], pos := s.up.pos + 1, phase := .collecting } : CU) =
            { s.up with batch := s.up.batch ++ [(s.up.pos, x.2.map UInt8.toNat)], pos := s.up.pos + 1 } by rw [← hp]]
          refine Matches.one h1 (.read l) rfl ?_
          unfold Sys.view
          rw [h2, view_check]
          have hw : (List.map bytes (s.hist c).committed)[s.up.pos]? = some (x.2.map UInt8.toNat) := by
            rw [List.getElem?_map, u2, hd, hx]
            simp [bytes]
          simp only [CU.step, hp, hw]
      · rename_i a hr
        have ha : a = (s.agg.onNV c.K (.cursorRead false)).1 := by rw [hr]
        have hou : (s.agg.nv.step c.K (.cursorRead false)).2 = .record (.err .unavailable) := congrArg Prod.snd hr
        subst ha
        obtain ⟨h1, h2⟩ := h.call hc (.cursorRead false) rfl s.up (s.hist c) (by rw [hou]; rfl) h.calm h.holed h.reading h.acked hup
        refine ⟨h1, [], ?_, by simp⟩
        unfold Sys.view
        rw [h2]
        rfl
      · rename_i a o n1 n2 hr
        exfalso
        have hou : (s.agg.nv.step c.K (.cursorRead false)).2 = o := congrArg Prod.snd hr
        cases hd : (s.hist c).committed[(s.hist c).taken.length + (s.hist c).ahead.length]? with
        | none =>
          obtain ⟨s', he⟩ := c4 hd
          rw [hs, he] at hou
          exact n2 hou.symm
        | some d =>
          obtain ⟨s', x', he, hsx, _⟩ := c3 d hd
          rw [hs, he] at hou
          exact n1 _ hou.symm
    | _ => simp only [Sys.step, hp]; exact .none h _
  | deadline =>
    cases hp : s.up.phase with
    | collecting =>
      simp only [Sys.step, hp]
      split
      · rename_i ha
        refine quiet_matches h s.up.flush rfl (upOk_flush hp hup) _ .deadline rfl ?_
        simp only [CU.step, Sys.view, hp, ha, if_true]
        rfl
      · exact .none h _
    | _ => simp only [Sys.step, hp]; exact .none h _
  | flag l =>
    cases hp : s.up.phase with
    | collecting =>
      simp only [Sys.step, hp]
      refine quiet_matches h (s.up.check l) (check_acked _ _) (upOk_check l hp hup) _ (.flag l) rfl ?_
      rw [view_check]
      simp only [CU.step, Sys.view, hp]
    | _ => simp only [Sys.step, hp]; exact .none h _
  | result r =>
    cases hp : s.up.phase with
    | uploading logs =>
      simp only [Sys.step, hp]
      unfold UpOk at hup
      rw [hp] at hup
      refine quiet_matches h { s.up with phase := .acking logs.length, finished := s.up.finished ++ [(logs, r)] } rfl hup _ (.result r) rfl ?_
      simp only [CU.step, Sys.view, hp]
    | _ => simp only [Sys.step, hp]; exact .none h _
  | advance =>
    cases hp : s.up.phase with
    | acking k =>
      unfold UpOk at hup
      rw [hp] at hup
      obtain ⟨u1, u2, u3, u4⟩ := hup
      cases k with
      | zero =>
        simp only [Sys.step, hp]
        refine quiet_matches h { s.up with phase := .collecting } rfl ⟨u1, u2, by simp [u3]⟩ _ .advance rfl ?_
        simp only [CU.step, Sys.view, hp]
      | succ k =>
        simp only [Sys.step, hp]
        obtain ⟨c1, c2, c3, c4, c5, c6⟩ := C06_cursor_partial c.K c.nlen hc.nlen c.crc true s.calls h.zero h.calm u1
        rw [← h.nv hc] at c6
        cases hah : (s.hist c).ahead with
        | nil => rw [hah] at u4; simp at u4
        | cons b rest =>
          obtain ⟨s', w, he, _⟩ := c6 (by rw [show nvHistory c.K c.nlen c.crc false true s.calls = s.hist c from rfl, hah]; simp)
          have hs : s.agg.nv.step c.K .ack = (s', .finished (.ok w)) := by
            simp only [NV.step, NOp.usesProducer, Bool.and_false, Bool.false_eq_true, if_false, NV.step', he]
          split
          · rename_i a w' hr
            have ha : a = (s.agg.onNV c.K .ack).1 := by rw [hr]
            subst ha
            obtain ⟨h1, h2⟩ := h.call hc .ack rfl
              { s.up with acked := s.up.acked + 1, phase := if k = 0 then .collecting else .acking k }
              { s.hist c with taken := (s.hist c).taken ++ [b], ahead := rest }
              (by rw [hs]; show _ = ({ s.hist c with taken := _, ahead := _ } : NTrace); rw [hah]; rfl) h.calm h.holed h.reading
              (by simp [h.acked])
              (by
                rw [hah] at u2 u4
                simp only [List.length_cons] at u2 u4
                unfold UpOk
                split
                · rename_i hph; split at hph <;> cases hph
                · refine ⟨u1, ?_, ?_⟩
                  · simp; omega
                  · simp [u3]
                · rename_i hph; split at hph <;> cases hph
                · rename_i hph
                  split at hph
                  · cases hph
                  · cases hph
                    refine ⟨u1, ?_, u3, ?_⟩
                    · simp; omega
                    · simp; omega)
            refine Matches.one h1 .advance rfl ?_
            unfold Sys.view
            rw [h2]
            simp only [CU.step, hp]
          · rename_i a o hno hr
            exfalso
            have hou : (s.agg.nv.step c.K .ack).2 = o := congrArg Prod.snd hr
            rw [hs] at hou
            exact hno _ hou.symm
    | _ => simp only [Sys.step, hp]; exact .none h _
  | shut =>
    refine quiet_matches h { s.up with shutdown := true } rfl ?_ _ .shut rfl rfl
    unfold UpOk at hup ⊢
    exact hup
  | stop =>
    cases hp : s.up.phase with
    | collecting =>
      simp only [Sys.step, hp]
      split
      · rename_i hs
        refine drop_matches h hc _ .stop rfl ?_
        simp only [CU.step, Sys.view, hp, hs, if_true]
      · exact .none h _
    | _ => simp only [Sys.step, hp]; exact .none h _
  | abortStop =>
    cases hp : s.up.phase with
    | uploading logs =>
      simp only [Sys.step, hp]
      split
      · rename_i hs
        refine drop_matches h hc _ .abortStop rfl ?_
        simp only [CU.step, Sys.view, hp, hs, if_true]
      · exact .none h _
    | _ => simp only [Sys.step, hp]; exact .none h _
  | abortGo =>
    cases hp : s.up.phase with
    | uploading logs =>
      simp only [Sys.step, hp]
      split
      · rename_i hs
        unfold UpOk at hup
        rw [hp] at hup
        refine quiet_matches h { s.up with phase := .collecting } rfl ⟨hup.1, hup.2.1, by simp [hup.2.2.1]⟩ _ .abortGo rfl ?_
        simp only [CU.step, Sys.view, hp, hs, if_true]
      · exact .none h _
    | _ => simp only [Sys.step, hp]; exact .none h _
  | reopen mem =>
    have hpe : (s.hist c).pending = none := hok
    have hpre : (s.step c (.reopen mem)).pre = s.calls ++ [.restart] := rfl
    have hnl : (s.step c (.reopen mem)).agg.nlog = [] := rfl
    have hcl : (s.step c (.reopen mem)).calls = s.calls ++ [.restart] := by
      show (s.step c (.reopen mem)).pre ++ (s.step c (.reopen mem)).agg.nlog.map (·.1) = _
      rw [hpre, hnl]
      simp
    have hnv := h.nv hc
    have hh : nvHistory c.K c.nlen c.crc false true (s.calls ++ [.restart]) =
        { s.hist c with pending := none, reading := none, ahead := [], cursor := false, fresh := true } := by
      rw [hist_snoc]
      show (s.hist c).step c.crc .restart _ = _
      have h1 := h.calm
      have h2 := h.holed
      have h3 := h.reading
      unfold NTrace.step
      simp_all
    have hhist : (s.step c (.reopen mem)).hist c =
        { s.hist c with pending := none, reading := none, ahead := [], cursor := false, fresh := true } := by
      rw [← hh]
      unfold Sys.hist
      rw [hcl]
    have hnp : ∀ r, s.agg.nv.producer ≠ some (some r) := by
      obtain ⟨mem', ha⟩ := h.ainv hc
      have hk := ha.ok
      have hp := (h.split hc).1
      rw [hpe] at hp
      intro r hr
      obtain ⟨q, hq, hno, _⟩ := nv_reach c.K c.nlen hc.nlen c.crc true s.calls h.zero h.calm
      have hpr := hq.producer
      rw [← hnv, hr] at hpr
      have := hno.pend
      cases hqp : q.producer with
      | none => rw [hqp] at hpr; cases hpr
      | some o =>
        cases o with
        | none => rw [hqp] at hpr; cases hpr
        | some p =>
          rw [hqp] at this
          obtain ⟨⟨d, hd, _⟩, _⟩ := this
          rw [show nvHistory c.K c.nlen c.crc false true s.calls = s.hist c from rfl, hpe] at hd
          cases hd
    have hi : RInv c (s.step c (.reopen mem)) := by
      refine ⟨.inr ⟨s.calls, hpre⟩, by rw [hpre, hh], ?_, ⟨mem, [], ?_⟩, ?_, by rw [hhist]; exact h.calm, by rw [hhist]; exact h.holed,
        by rw [hhist], by rw [hhist]; exact h.acked, by rw [hhist]; rfl⟩
      · rw [hpre, hh]
        exact h.full hc
      · show Ring.opened c mem (s.agg.nv.step c.K .restart).1 = Ring.opened c mem (nvAfter c.K c.nlen c.crc false true _)
        rw [hpre, after_snoc, hnv]
      · rw [hcl]
        refine noZero_snoc _ _ h.zero ?_
        intro _
        unfold nvAfter at hnv
        rw [← hnv]
        exact hnp
    refine Matches.one hi .kill rfl ?_
    unfold Sys.view
    rw [hhist]
    rfl

/-! ### Runs -/

/-- Every event of the run is `ok` where it happens. -/
def Clean (c : Cfg) : Sys → List Ev → Prop
  | _, [] => True
  | s, e :: es => s.ok c e ∧ Clean c (s.step c e) es

theorem run_matches {c : Cfg} (hc : c.Sane) (es : List Ev) : ∀ {s : Sys}, RInv c s → Clean c s es →
    RInv c (s.run c es) ∧
    ∃ xs, (s.run c es).view c = (s.view c).run xs ∧ ∀ x ∈ xs, (∃ d, x = .write d) ∨ ∃ e ∈ es, Ev.cu e = some x := by
  induction es with
  | nil => intro s h _; exact ⟨h, [], rfl, by simp⟩
  | cons e es ih =>
    intro s h hcl
    obtain ⟨h1, xs, h2, h3⟩ := step_matches h hc e hcl.1
    obtain ⟨h4, ys, h5, h6⟩ := ih h1 hcl.2
    refine ⟨h4, xs ++ ys, ?_, ?_⟩
    · show (Sys.run c (s.step c e) es).view c = _
      rw [h5, h2]
      unfold CU.run
      rw [List.foldl_append]
    · intro x hx
      rcases List.mem_append.1 hx with hx | hx
      · rcases h3 x hx with h | h
        · exact .inl h
        · exact .inr ⟨e, List.mem_cons_self, h⟩
      · rcases h6 x hx with h | ⟨e', h, h'⟩
        · exact .inl h
        · exact .inr ⟨e', List.mem_cons_of_mem _ h, h'⟩

theorem RInv.init (c : Cfg) (mem : Mem) : RInv c (Sys.init c mem) :=
  ⟨.inl rfl, rfl, (fun d hd => nomatch hd), ⟨mem, [], rfl⟩, trivial, rfl, rfl, rfl, rfl, rfl⟩

/-! ### C98 -/

/-- C98, the abstraction is right: what the uploader does on the byte level rings - the batches, the uploads with their bytes, what it
acknowledges - is what the uploader of `Verif.Upload` does on the list of the records the flush thread committed to the file. -/
theorem C98_refines_partial (c : Cfg) (hc : c.Sane) (mem : Mem) (es : List Ev) (hcl : Clean c (Sys.init c mem) es) :
    let s := (Sys.init c mem).run c es
    ∃ xs : List CEv, (∀ x ∈ xs, (∃ d, x = .write d) ∨ ∃ e ∈ es, Ev.cu e = some x) ∧
      { s.up with written := (s.hist c).committed.map bytes } = CU.init.run xs := by
  obtain ⟨_, xs, h1, h2⟩ := run_matches hc es (RInv.init c mem) hcl
  exact ⟨xs, h2, h1⟩

/-- C98, nothing is removed without having been uploaded: every record acknowledged - the `i`-th committed to the file - was given to
an upload that returned a result other than "cancelled", with the bytes that were committed. -/
theorem C98_uploaded_partial (c : Cfg) (hc : c.Sane) (mem : Mem) (es : List Ev) (hcl : Clean c (Sys.init c mem) es)
    (hgo : .abortGo ∉ es) (hcan : .result .canceled ∉ es) :
    let s := (Sys.init c mem).run c es
    ∀ i bs, (s.hist c).taken[i]? = some bs →
      (s.hist c).committed[i]? = some (bs.map some) ∧
      ∃ u ∈ s.up.finished, u.2 ≠ .canceled ∧ (i, bs.map UInt8.toNat) ∈ u.1 := by
  intro s i bs hi
  obtain ⟨hinv, xs, h1, h2⟩ := run_matches hc es (RInv.init c mem) hcl
  have hil : i < (s.hist c).taken.length := by
    rcases Nat.lt_or_ge i (s.hist c).taken.length with h | h
    · exact h
    · rw [List.getElem?_eq_none h] at hi; cases hi
  have hok : ∀ e ∈ xs, CEv.okFor (· ≠ .canceled) e := by
    intro x hx
    rcases h2 x hx with ⟨d, rfl⟩ | ⟨e, he, hxe⟩
    · trivial
    · cases e with
      | result r => cases hxe; intro hr; subst hr; exact hcan he
      | abortGo => exact absurd he hgo
      | _ => cases hxe <;> trivial
  have h3 := Verif.Upload.C13_acknowledged_partial xs hok
  have e : CU.init.run xs = s.view c := h1.symm
  rw [e] at h3
  have hac : (s.view c).acked = (s.hist c).taken.length := hinv.acked
  obtain ⟨u, hu, hr, d, hd, hw⟩ := h3 i (by rw [hac]; exact hil)
  obtain ⟨b1, b2, _⟩ := C05_never_loses c.K c.nlen hc.nlen c.crc true s.calls hinv.zero hinv.calm
  have b1 : (s.hist c).taken.length ≤ (s.hist c).committed.length := b1
  have b2 : storesAll ((s.hist c).committed.take (s.hist c).taken.length) (s.hist c).taken := b2
  have hcm : (s.hist c).committed[i]? = some (bs.map some) := by
    have hg := List.forall₂_iff_get.1 b2
    have h5 := hg.2 i (by rw [List.length_take]; omega) hil
    have e1 : (s.hist c).taken[i] = bs := by
      rw [List.getElem?_eq_getElem hil] at hi; exact Option.some.inj hi
    simp only [List.get_eq_getElem, List.getElem_take, e1] at h5
    obtain ⟨bs', hb⟩ := hinv.full hc ((s.hist c).committed[i]'(by omega)) (List.getElem_mem _)
    rw [List.getElem?_eq_getElem (by omega), hb]
    rw [hb] at h5
    congr 2
    apply List.ext_getElem?
    intro k
    by_cases hk : k < bs'.length
    · rw [h5.2 k bs'[k] (by simp [hk])]; simp [hk]
    · have hl := h5.1
      rw [List.length_map] at hl
      rw [List.getElem?_eq_none (by omega), List.getElem?_eq_none (by omega)]
  refine ⟨hcm, u, hu, hr, ?_⟩
  have : d = bs.map UInt8.toNat := by
    have hw' : ((s.hist c).committed.map bytes)[i]? = some d := hw
    rw [List.getElem?_map, hcm] at hw'
    simp [bytes] at hw'
    exact hw'.symm
  rw [← this]
  exact hd

/-- C98, the rest is still there: the records committed to the file and not acknowledged are what a reader of the file finds, in order
and with their bytes, whatever happened to the uploader and however often the process ended. -/
theorem C98_kept_partial (c : Cfg) (hc : c.Sane) (mem : Mem) (es : List Ev) (hcl : Clean c (Sys.init c mem) es) :
    let s := (Sys.init c mem).run c es
    (s.hist c).taken.map (·.map some) ++ ((s.agg.nv.unread c.K).map (·.2)).map (·.map some) = (s.hist c).committed := by
  intro s
  obtain ⟨hinv, _⟩ := run_matches hc es (RInv.init c mem) hcl
  obtain ⟨b1, b2, b3, _⟩ := C05_never_loses c.K c.nlen hc.nlen c.crc true s.calls hinv.zero hinv.calm
  have b3 := b3 hinv.reading
  rw [← hinv.nv hc] at b3
  have b2 : storesAll ((s.hist c).committed.take (s.hist c).taken.length) (s.hist c).taken := b2
  have b3 : storesAll ((s.hist c).committed.drop (s.hist c).taken.length) ((s.agg.nv.unread c.K).map (·.2)) := b3
  have key : ∀ (ds : List (List (Option UInt8))) (bss : List (List UInt8)), (∀ d ∈ ds, ∃ bs : List UInt8, d = bs.map some) →
      storesAll ds bss → bss.map (·.map some) = ds := by
    intro ds bss hf hs
    induction hs with
    | nil => rfl
    | @cons d bs ds bss hd _ ih =>
      obtain ⟨bs', rfl⟩ := hf _ List.mem_cons_self
      rw [List.map_cons, ih (fun d hd => hf d (List.mem_cons_of_mem _ hd))]
      congr 2
      apply List.ext_getElem?
      intro k
      by_cases hk : k < bs'.length
      · rw [hd.2 k bs'[k] (by simp [hk])]; simp [hk]
      · have hl := hd.1
        rw [List.length_map] at hl
        rw [List.getElem?_eq_none (by omega), List.getElem?_eq_none (by omega)]
  have hf := hinv.full hc
  rw [key _ _ (fun d hd => hf d (List.mem_of_mem_take hd)) b2, key _ _ (fun d hd => hf d (List.mem_of_mem_drop hd)) b3,
    List.take_append_drop]

/-- C98, where a record is.  Every reservation granted in memory by this process is in exactly one place: moved to the file (in the
order of the reservations, with the bytes stored), overwritten in memory, or in memory.  None is dropped on the way. -/
theorem C98_source_partial (c : Cfg) (hc : c.Sane) (mem : Mem) (es : List Ev) (hcl : Clean c (Sys.init c mem) es) :
    let s := (Sys.init c mem).run c es
    ∃ before moved : List (List UInt8), ∃ disk lost live : List Nat,
      (s.hist c).committed = (before ++ moved).map (·.map some) ∧
      List.Forall₂ (fun bs i => ∃ g, s.agg.seen.grants[i]? = some g ∧ g.committed = true ∧ stores g.data bs) moved disk ∧
      disk.Pairwise (· < ·) ∧ (disk ++ lost ++ live).Perm (List.range s.agg.seen.grants.length) ∧
      lost.length = s.agg.vol.core.stats.recordsOverwritten ∧ (∀ i ∈ disk ++ lost, ∀ j ∈ live, i < j) := by
  intro s
  obtain ⟨hinv, _⟩ := run_matches hc es (RInv.init c mem) hcl
  obtain ⟨mem', ha⟩ := hinv.ainv hc
  obtain ⟨disk, refused, lost, live, hl⟩ := ha.ledger hc.vlen
  have hdrop : s.agg.dropped = 0 := by
    obtain ⟨m, ops, hr⟩ := hinv.run
    have hz := hinv.zero
    have hcm := hinv.calm
    unfold Sys.hist at hcm
    unfold Sys.calls at hz hcm
    have hr : s.agg = _ := hr
    rw [hr]
    exact C09_no_drops_cursor c.K c.vlen c.nlen hc.vlen hc.nlen m c.crc s.pre hinv.opened _ (opened_new hc m _) ops
      (by rw [← hr]; exact hz) (by rw [← hr]; exact hcm)
  have hre : refused = [] := List.length_eq_zero_iff.1 (by rw [hl.drops, hdrop])
  subst hre
  have full : ∀ ds : List (List (Option UInt8)), (∀ d ∈ ds, ∃ bs : List UInt8, d = bs.map some) →
      ∃ bss : List (List UInt8), ds = bss.map (·.map some) := by
    intro ds
    induction ds with
    | nil => intro _; exact ⟨[], rfl⟩
    | cons d ds ih =>
      intro hf
      obtain ⟨bs, rfl⟩ := hf _ List.mem_cons_self
      obtain ⟨bss, rfl⟩ := ih (fun d hd => hf d (List.mem_cons_of_mem _ hd))
      exact ⟨bs :: bss, rfl⟩
  obtain ⟨before, hb⟩ := full _ hinv.full0
  have hcp := hl.copied
  have : ∃ moved : List (List UInt8), s.agg.stored.committed = moved.map (·.map some) ∧
      List.Forall₂ (fun bs i => ∃ g, s.agg.seen.grants[i]? = some g ∧ g.committed = true ∧ stores g.data bs) moved disk := by
    revert hcp
    generalize s.agg.stored.committed = ds
    intro hcp
    clear hl
    induction hcp with
    | nil => exact ⟨[], rfl, .nil⟩
    | cons hx _ ih =>
      obtain ⟨mv, e1, e2⟩ := ih
      obtain ⟨g, bs, g1, g2, g3, rfl⟩ := hx
      exact ⟨bs :: mv, by rw [e1]; rfl, .cons ⟨g, g1, g2, g3⟩ e2⟩
  obtain ⟨moved, m1, m2⟩ := this
  refine ⟨before, moved, disk, lost, live, ?_, m2, hl.order, ?_, hl.overwritten, ?_⟩
  · rw [(hinv.split hc).2, hb, m1, List.map_append]
  · simpa using hl.all
  · simpa using hl.oldest

/-- C98, order: every upload carried a run of consecutive records of the file. -/
theorem C98_batches_partial (c : Cfg) (hc : c.Sane) (mem : Mem) (es : List Ev) (hcl : Clean c (Sys.init c mem) es) :
    let s := (Sys.init c mem).run c es
    ∀ u ∈ s.up.finished, u.1 ≠ [] ∧ ∃ (a : Nat) (bss : List (List UInt8)), u.1.map (·.2) = bss.map (·.map UInt8.toNat) ∧
      bss.map (·.map some) = ((s.hist c).committed.drop a).take u.1.length := by
  intro s u hu
  obtain ⟨hinv, xs, h1, h2⟩ := run_matches hc es (RInv.init c mem) hcl
  have h3 := Verif.Upload.C12_continuous xs
  have e : CU.init.run xs = s.view c := h1.symm
  rw [e] at h3
  obtain ⟨h4, a, h5⟩ := h3 u hu
  refine ⟨h4, a, ?_⟩
  have h5 : u.1.map (·.2) = (((s.hist c).committed.map bytes).drop a).take u.1.length := h5
  rw [← List.map_drop, ← List.map_take] at h5
  have hf : ∀ d ∈ ((s.hist c).committed.drop a).take u.1.length, ∃ bs : List UInt8, d = bs.map some :=
    fun d hd => hinv.full hc d (List.mem_of_mem_drop (List.mem_of_mem_take hd))
  rw [h5]
  revert hf
  generalize ((s.hist c).committed.drop a).take u.1.length = ds
  intro hf
  induction ds with
  | nil => exact ⟨[], rfl, rfl⟩
  | cons d ds ih =>
    obtain ⟨bs, rfl⟩ := hf _ List.mem_cons_self
    obtain ⟨bss, e1, e2⟩ := ih (fun d hd => hf d (List.mem_cons_of_mem _ hd))
    refine ⟨bs :: bss, ?_, ?_⟩
    · rw [List.map_cons, e1]
      simp [bytes]
    · rw [List.map_cons, e2]

theorem cu_alive (v : CU) (x : CEv) (hv : v.phase ≠ .stopped) (h1 : x ≠ .stop) (h2 : x ≠ .abortStop) (h3 : x ≠ .kill) :
    (v.step x).phase ≠ .stopped := by
  have hck : ∀ (u : CU) (l : Limits), u.phase ≠ .stopped → (u.check l).phase ≠ .stopped := by
    intro u l hu
    unfold CU.check CU.flush CU.arm
    repeat' split
    all_goals simp_all
  cases x with
  | stop => exact absurd rfl h1
  | abortStop => exact absurd rfl h2
  | kill => exact absurd rfl h3
  | read l =>
    simp only [CU.step]
    split
    · rename_i hp _; exact hck _ l (by simp [hp])
    · exact hv
  | flag l =>
    simp only [CU.step]
    split
    · exact hck _ l hv
    · exact hv
  | _ =>
    simp only [CU.step]
    repeat' split
    all_goals simp_all [CU.flush]

/-- C98, errors, in every state whatsoever: when a read of the file or an acknowledgement fails, the uploader ends there; the batch
and what counts as read, acknowledged and uploaded stay as they are. -/
theorem C98_error (c : Cfg) (s : Sys) :
    (∀ l, s.up.phase = .collecting →
      (∀ x, (s.agg.onNV c.K (.cursorRead false)).2 ≠ .record (.ok x)) →
      (s.agg.onNV c.K (.cursorRead false)).2 ≠ .record (.err .unavailable) →
      (s.step c (.read l)).up = { s.up with phase := .stopped }) ∧
    (∀ k, s.up.phase = .acking (k + 1) → (∀ x, (s.agg.onNV c.K .ack).2 ≠ .finished (.ok x)) →
      (s.step c .advance).up = { s.up with phase := .stopped }) := by
  constructor
  · intro l hp h1 h2
    unfold Sys.step
    rw [hp]
    dsimp only
    split
    · rename_i a x hx
      rw [hx] at h1
      exact absurd rfl (h1 x)
    · rename_i a hx
      rw [hx] at h2
      exact absurd rfl h2
    · rfl
  · intro k hp h1
    unfold Sys.step
    rw [hp]
    dsimp only
    split
    · rename_i a x hx
      rw [hx] at h1
      exact absurd rfl (h1 x)
    · rfl

/-- C98, no error: reading and acknowledging never fail, so the uploader stops only when it is told to or the process ends. -/
theorem C98_alive_partial (c : Cfg) (hc : c.Sane) (mem : Mem) (es : List Ev) (hcl : Clean c (Sys.init c mem) es) (e : Ev) :
    let s := (Sys.init c mem).run c es
    s.ok c e → s.up.phase ≠ .stopped → (s.step c e).up.phase = .stopped →
    (e = .stop ∨ e = .abortStop) ∧ s.up.shutdown = true ∨ ∃ m, e = .reopen m := by
  intro s hok hp hp'
  obtain ⟨hinv, _⟩ := run_matches hc es (RInv.init c mem) hcl
  obtain ⟨hi, xs, h1, h2⟩ := step_matches hinv hc e hok
  have hv : ((s.view c).run xs).phase = .stopped := by rw [← h1]; exact hp'
  clear h1
  have hv0 : (s.view c).phase ≠ .stopped := hp
  have hsd : (s.view c).shutdown = s.up.shutdown := rfl
  rw [← hsd]
  revert hv hv0
  generalize s.view c = v
  induction xs generalizing v with
  | nil => intro hv hv0; exact absurd hv hv0
  | cons x xs ih =>
    intro hv hv0
    have hv : ((v.step x).run xs).phase = .stopped := hv
    have ih := ih (fun y hy => h2 y (List.mem_cons_of_mem _ hy)) (v.step x)
    rcases h2 x List.mem_cons_self with ⟨d, rfl⟩ | hx
    · exact ih hv hv0
    · cases e with
      | stop =>
        cases hx
        by_cases hs : v.shutdown = true
        · exact .inl ⟨.inl rfl, hs⟩
        · have e1 : v.step .stop = v := by
            simp only [CU.step]
            split
            · rw [if_neg hs]
            · rfl
          rw [e1] at ih hv
          exact ih hv hv0
      | abortStop =>
        cases hx
        by_cases hs : v.shutdown = true
        · exact .inl ⟨.inr rfl, hs⟩
        · have e1 : v.step .abortStop = v := by
            simp only [CU.step]
            split
            · rw [if_neg hs]
            · rfl
          rw [e1] at ih hv
          exact ih hv hv0
      | reopen m => exact .inr ⟨m, rfl⟩
      | agg op => cases hx
      | start =>
        cases hx
        rcases ih hv (cu_alive v _ hv0 (by simp) (by simp) (by simp)) with ⟨h | h, _⟩ | ⟨m, h⟩ <;> cases h
      | read l =>
        cases hx
        rcases ih hv (cu_alive v _ hv0 (by simp) (by simp) (by simp)) with ⟨h | h, _⟩ | ⟨m, h⟩ <;> cases h
      | deadline =>
        cases hx
        rcases ih hv (cu_alive v _ hv0 (by simp) (by simp) (by simp)) with ⟨h | h, _⟩ | ⟨m, h⟩ <;> cases h
      | flag l =>
        cases hx
        rcases ih hv (cu_alive v _ hv0 (by simp) (by simp) (by simp)) with ⟨h | h, _⟩ | ⟨m, h⟩ <;> cases h
      | result r =>
        cases hx
        rcases ih hv (cu_alive v _ hv0 (by simp) (by simp) (by simp)) with ⟨h | h, _⟩ | ⟨m, h⟩ <;> cases h
      | advance =>
        cases hx
        rcases ih hv (cu_alive v _ hv0 (by simp) (by simp) (by simp)) with ⟨h | h, _⟩ | ⟨m, h⟩ <;> cases h
      | shut =>
        cases hx
        rcases ih hv (cu_alive v _ hv0 (by simp) (by simp) (by simp)) with ⟨h | h, _⟩ | ⟨m, h⟩ <;> cases h
      | abortGo =>
        cases hx
        rcases ih hv (cu_alive v _ hv0 (by simp) (by simp) (by simp)) with ⟨h | h, _⟩ | ⟨m, h⟩ <;> cases h

/-- C98: an uploader that ends gives up its place in the buffer, so the next one of the same process can be registered. -/
theorem C98_released (c : Cfg) (s : Sys) (e : Ev) (hp : s.up.phase ≠ .stopped) (hs : (s.step c e).up.phase = .stopped)
    (he : ∀ m, e ≠ .reopen m) : (s.step c e).agg.nv.consumer = none := by
  have hd : ∀ a : Agg, (a.onNV c.K .dropConsumer).1.nv.consumer = none := by
    intro a
    simp [Agg.onNV, NV.step, NOp.usesProducer, NV.step']
  have hck : ∀ (u : CU) l, u.phase ≠ .stopped → (u.check l).phase ≠ .stopped := by
    intro u l hu
    unfold CU.check CU.flush CU.arm
    split
    · simp
    · split <;> exact hu
  revert hs
  cases e with
  | reopen m => exact absurd rfl (he m)
  | agg op => simp only [Sys.step]; split <;> exact fun h => absurd h hp
  | start =>
    simp only [Sys.step]
    exact fun h => absurd h hp
  | read l =>
    simp only [Sys.step]
    split
    · next h =>
      split
      · exact fun h' => absurd h' (hck _ _ hp)
      · exact fun h => absurd h hp
      · exact fun _ => hd _
    · exact fun h => absurd h hp
  | deadline =>
    simp only [Sys.step]
    split
    · split
      · intro h; cases h
      · exact fun h => absurd h hp
    · exact fun h => absurd h hp
  | flag l =>
    simp only [Sys.step]
    split
    · exact fun h' => absurd h' (hck _ _ hp)
    · exact fun h => absurd h hp
  | result r =>
    simp only [Sys.step]
    split
    · intro h; cases h
    · exact fun h => absurd h hp
  | advance =>
    simp only [Sys.step]
    split
    · split
      · intro h
        simp only at h
        split at h <;> cases h
      · exact fun _ => hd _
    · intro h; cases h
    · exact fun h => absurd h hp
  | shut => exact fun h => absurd h hp
  | stop =>
    simp only [Sys.step]
    split
    · split
      · exact fun _ => hd _
      · exact fun h => absurd h hp
    · exact fun h => absurd h hp
  | abortStop =>
    simp only [Sys.step]
    split
    · split
      · exact fun _ => hd _
      · exact fun h => absurd h hp
    · exact fun h => absurd h hp
  | abortGo =>
    simp only [Sys.step]
    split
    · split
      · intro h; cases h
      · exact fun h => absurd h hp
    · exact fun h => absurd h hp

/-- C98, the next process: it opens the file, starts an uploader, and the first record that uploader reads is the oldest one not
acknowledged, with the bytes committed. -/
theorem C98_restart_partial (c : Cfg) (hc : c.Sane) (mem mem' : Mem) (es : List Ev) (hcl : Clean c (Sys.init c mem) es) (l : Limits) :
    let s := (Sys.init c mem).run c es
    (s.hist c).pending = none →
    ∀ bs : List UInt8, (s.hist c).committed[(s.hist c).taken.length]? = some (bs.map some) →
    let t := s.run c [.reopen mem', .start, .read l]
    let log := ((s.hist c).taken.length, bs.map UInt8.toNat)
    (t.up.phase = .collecting ∧ t.up.batch = [log]) ∨ t.up.phase = .uploading [log] := by
  intro s hpe bs hbs t log
  obtain ⟨hinv, _⟩ := run_matches hc es (RInv.init c mem) hcl
  obtain ⟨r1, _⟩ := C06_restart_partial c.K c.nlen hc.nlen c.crc true s.calls hinv.zero hinv.calm hinv.reading hpe hinv.holed
  obtain ⟨x, hx, hst⟩ := r1 _ hbs
  rw [← hinv.nv hc] at hx
  simp only [NV.run, List.cons.injEq, and_true] at hx
  obtain ⟨x1, x2, x3⟩ := hx
  have hxb : x.2 = bs := by
    apply List.ext_getElem?
    intro k
    by_cases hk : k < bs.length
    · rw [hst.2 k bs[k] (by simp [hk])]; simp [hk]
    · have hl := hst.1
      rw [List.length_map] at hl
      rw [List.getElem?_eq_none (by omega), List.getElem?_eq_none (by omega)]
  -- the start
  let s1 := s.step c (.reopen mem')
  have p1 : s1.up.phase = .stopped := rfl
  have n1 : s1.agg.nv = (s.agg.nv.step c.K .restart).1 := rfl
  have e2 : s1.agg.onNV c.K .registerCursor = ((s1.agg.onNV c.K .registerCursor).1, .unit (.ok ())) := by
    refine Prod.ext rfl ?_
    show (s1.agg.nv.step c.K .registerCursor).2 = _
    rw [n1]; exact x2
  have hs2 : s1.step c .start = { s1 with
      agg := (s1.agg.onNV c.K .registerCursor).1
      up := { s1.up with pos := s1.up.acked, batch := [], armed := false, phase := .collecting, shutdown := false } } := by
    simp only [Sys.step, p1]
    rw [e2]
  let s2 := s1.step c .start
  have p2 : s2.up.phase = .collecting := by show (s1.step c .start).up.phase = _; rw [hs2]
  have n2 : s2.agg.nv = ((s.agg.nv.step c.K .restart).1.step c.K .registerCursor).1 := by
    show (s1.step c .start).agg.nv = _; rw [hs2]; rfl
  have e3 : s2.agg.onNV c.K (.cursorRead false) = ((s2.agg.onNV c.K (.cursorRead false)).1, .record (.ok x)) := by
    refine Prod.ext rfl ?_
    show (s2.agg.nv.step c.K (.cursorRead false)).2 = _
    rw [n2]; exact x3
  have hs3 : s2.step c (.read l) = { s2 with
      agg := (s2.agg.onNV c.K (.cursorRead false)).1
      up := CU.check { s2.up with batch := s2.up.batch ++ [(s2.up.pos, x.2.map UInt8.toNat)], pos := s2.up.pos + 1 } l } := by
    simp only [Sys.step, p2]
    rw [e3]
  have ht : t = s2.step c (.read l) := rfl
  have b2 : s2.up.batch = [] ∧ s2.up.pos = (s.hist c).taken.length := by
    show (s1.step c .start).up.batch = [] ∧ (s1.step c .start).up.pos = _
    rw [hs2]
    exact ⟨rfl, hinv.acked⟩
  rw [ht, hs3]
  simp only [b2.1, b2.2, hxb]
  unfold CU.check CU.flush CU.arm
  simp only [p2]
  split
  · right; rfl
  · left; split <;> exact ⟨rfl, rfl⟩

/-! ### Examples and counterexamples -/

instance (c : Cfg) (s : Sys) (e : Ev) : Decidable (s.ok c e) := by
  cases e <;> simp only [Sys.ok] <;> infer_instance

instance decClean (c : Cfg) : ∀ (s : Sys) (es : List Ev), Decidable (Clean c s es)
  | _, [] => .isTrue trivial
  | s, e :: es => @instDecidableAnd _ _ _ (decClean c (s.step c e) es)

/-- Small rings, with checksums. -/
def c0 : Cfg := ⟨testCrc, 64, 64, true⟩

def mem0 : Mem := fun _ => 0

theorem c0_sane : c0.Sane := ⟨by decide, by decide, by decide⟩

/-- A record is written, and moved to the file. -/
def log (bs : List UInt8) : List Ev :=
  [.agg (.vol (.reserve 0 bs.length)), .agg (.vol (.write 0 0 bs)), .agg (.vol (.commit 0))] ++ List.replicate 5 (.agg .thread)

/-- The flush thread starts. -/
def up2 : List Ev := List.replicate 2 (.agg .thread)

/-- Read one record, upload it. -/
def send : List Ev := [.read ⟨1, 1⟩, .result .success, .advance]

/-- Two processes.  The first uploads one record, has a second one in an upload and a third one in the file when it ends; the next one
uploads the second and the third. -/
def twoLives : List Ev :=
  up2 ++ log [1, 2] ++ [.start] ++ send ++ log [3] ++ log [4, 5, 6] ++ [.read ⟨1, 1⟩, .reopen mem0] ++ up2 ++ [.start] ++ send ++ send

example : Clean c0 (Sys.init c0 mem0) twoLives ∧ Ev.abortGo.cu ∉ twoLives.map Ev.cu ∧
    let s := (Sys.init c0 mem0).run c0 twoLives
    (s.hist c0).taken = [[1, 2], [3], [4, 5, 6]] ∧ (s.hist c0).committed = [[some 1, some 2], [some 3], [some 4, some 5, some 6]] ∧
    s.up.finished = [([(0, [1, 2])], .success), ([(1, [3])], .success), ([(2, [4, 5, 6])], .success)] ∧
    s.agg.nv.unread c0.K = [] := by decide +kernel

example :
    let es : List Ev := up2 ++ log [1, 2] ++ [.start] ++ send ++ log [3] ++ log [4, 5, 6] ++ [.read ⟨1, 1⟩]
    let s := (Sys.init c0 mem0).run c0 es
    Clean c0 (Sys.init c0 mem0) es ∧ s.up.phase = .uploading [(1, [3])] ∧ (s.hist c0).pending = none ∧
    (s.hist c0).committed[(s.hist c0).taken.length]? = some [some 3] ∧
    (s.agg.nv.unread c0.K).map (·.2) = [[3], [4, 5, 6]] ∧ s.agg.seen.grants.length = 3 := by decide +kernel

/-- An uploader is asked to end, and ends; the next one of the same process is registered. -/
example :
    let s := (Sys.init c0 mem0).run c0 (up2 ++ log [1, 2] ++ [.start] ++ send ++ [.shut, .stop])
    s.up.phase = .stopped ∧ s.agg.nv.consumer = none ∧ ((s.step c0 .start).agg.nv.consumer).isSome = true := by decide +kernel

/-- The process ends between `reserve` and `commit` of the flush thread.  The next process uploads two records, and the third one,
not uploaded, is gone. -/
theorem C98_hole_violated : ∃ es : List Ev, some CEv.abortGo ∉ es.map Ev.cu ∧
    let s := (Sys.init c0 mem0).run c0 es
    (s.hist c0).committed = [[some 1, some 2], [some 3, some 4], [some 5, some 6, some 7]] ∧
    s.up.finished = [([(0, [1, 2])], .success), ([(1, [3, 4])], .success)] ∧ s.agg.nv.unread c0.K = [] := by
  refine ⟨up2 ++ log [1, 2] ++
    [.agg (.vol (.reserve 0 3)), .agg (.vol (.write 0 0 [7, 7, 7])), .agg (.vol (.commit 0)), .agg .thread, .agg .thread, .agg .thread,
      .reopen mem0] ++ up2 ++ [.start] ++ log [3, 4] ++ log [5, 6, 7] ++ send ++ send, ?_⟩
  decide +kernel

/-- An uploader is stopped with a record read and not uploaded, and another one is started in the same process: it starts with the
record after it, its acknowledgement removes the wrong number of bytes, and the file is reset.  Of three records one was uploaded, and
none is left. -/
theorem C98_reregister_violated : ∃ es : List Ev, some CEv.abortGo ∉ es.map Ev.cu ∧
    let s := (Sys.init c0 mem0).run c0 es
    (s.hist c0).committed = [[some 1, some 2], [some 3, some 4, some 5], [some 6]] ∧
    s.up.finished.map (fun u => u.1.map (·.2)) = [[[3, 4, 5]]] ∧ s.agg.nv.unread c0.K = [] := by
  refine ⟨up2 ++ log [1, 2] ++ log [3, 4, 5] ++ log [6] ++ [.start, .read ⟨1, 1⟩, .shut, .abortStop, .start] ++ send, ?_⟩
  decide +kernel

/-- The uploader goes on after abandoning an upload because of a shutdown (see `C13_abort_violated`): the first record is removed
without having been part of a finished upload. -/
theorem C98_abort_violated : ∃ es : List Ev, Clean c0 (Sys.init c0 mem0) es ∧ some (CEv.result .canceled) ∉ es.map Ev.cu ∧
    let s := (Sys.init c0 mem0).run c0 es
    (s.hist c0).taken = [[1, 2]] ∧ s.up.finished = [([(1, [3])], .success)] := by
  refine ⟨up2 ++ log [1, 2] ++ log [3] ++ [.start, .read ⟨1, 1⟩, .shut, .abortGo] ++ send, ?_⟩
  decide +kernel

end Verif.Ring
