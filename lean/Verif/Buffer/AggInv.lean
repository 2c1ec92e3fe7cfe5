import Verif.Buffer.AggLemmas

/-
Invariant of the aggregate buffer.  Helper lemmas only.
-/
namespace Verif.Buffer

theorem trace_snoc (l : List (Op × Out)) (x : Op × Out) : ∀ t : Trace,
    t.run ((l ++ [x]).map (·.1)) ((l ++ [x]).map (·.2)) =
      (t.run (l.map (·.1)) (l.map (·.2))).step x.1 x.2 := by
  induction l with
  | nil => intro t; rfl
  | cons y l ih => intro t; exact ih _

theorem ntrace_snoc (crc : Bool) (l : List (NOp × Out)) (x : NOp × Out) : ∀ t : NTrace,
    t.run crc ((l ++ [x]).map (·.1)) ((l ++ [x]).map (·.2)) =
      (t.run crc (l.map (·.1)) (l.map (·.2))).step crc x.1 x.2 := by
  induction l with
  | nil => intro t; rfl
  | cons y l ih => intro t; exact ih _

theorem vol_run_snoc (ops : List Op) (op : Op) (v : Vol) :
    v.run (ops ++ [op]) = (((v.run ops).1.step op).1, (v.run ops).2 ++ [((v.run ops).1.step op).2]) := by
  rw [vol_run_append]; rfl

theorem nv_run_snoc (K : Crc) (ops : List NOp) (op : NOp) : ∀ (s : NV),
    s.run K (ops ++ [op]) =
      (((s.run K ops).1.step K op).1, (s.run K ops).2 ++ [((s.run K ops).1.step K op).2]) := by
  induction ops with
  | nil => intro s; rfl
  | cons o ops ih =>
    intro s
    have := ih (s.step K o).1
    show (((s.step K o).1.run K (ops ++ [op])).1, (s.step K o).2 :: ((s.step K o).1.run K (ops ++ [op])).2) = _
    rw [this]; rfl

/-- The logs are the calls made. -/
structure Logged (K : Crc) (len : Nat) (mem : Mem) (s0 : NV) (a : Agg) : Prop where
  vol : (Vol.new len mem).run (a.vlog.map (·.1)) = (a.vol, a.vlog.map (·.2))
  nv : s0.run K (a.nlog.map (·.1)) = (a.nv, a.nlog.map (·.2))
  crc : a.nv.crc = s0.crc

theorem Logged.seen {K : Crc} {len : Nat} {mem : Mem} {s0 : NV} {a : Agg} (h : Logged K len mem s0 a) :
    a.seen = history len mem (a.vlog.map (·.1)) := by
  unfold Agg.seen history
  rw [h.vol]

theorem Logged.onVol {K : Crc} {len : Nat} {mem : Mem} {s0 : NV} {a : Agg} (h : Logged K len mem s0 a)
    (op : Op) : Logged K len mem s0 (a.onVol op).1 := by
  refine ⟨?_, h.nv, h.crc⟩
  show (Vol.new len mem).run ((a.vlog ++ [(op, (a.vol.step op).2)]).map (·.1)) =
    ((a.vol.step op).1, (a.vlog ++ [(op, (a.vol.step op).2)]).map (·.2))
  rw [List.map_append, List.map_append]
  show (Vol.new len mem).run (a.vlog.map (·.1) ++ [op]) = _
  rw [vol_run_snoc, h.vol]
  rfl

theorem Logged.goto {K : Crc} {len : Nat} {mem : Mem} {s0 : NV} {a : Agg} (h : Logged K len mem s0 a)
    (s : Stage) : Logged K len mem s0 (a.goto s) := ⟨h.vol, h.nv, h.crc⟩

theorem Logged.onNV {K : Crc} {len : Nat} {mem : Mem} {s0 : NV} {a : Agg} (h : Logged K len mem s0 a)
    (op : NOp) (hc : (a.nv.step K op).1.crc = a.nv.crc) : Logged K len mem s0 (a.onNV K op).1 := by
  refine ⟨h.vol, ?_, hc.trans h.crc⟩
  show s0.run K ((a.nlog ++ [(op, (a.nv.step K op).2)]).map (·.1)) =
    ((a.nv.step K op).1, (a.nlog ++ [(op, (a.nv.step K op).2)]).map (·.2))
  rw [List.map_append, List.map_append]
  show s0.run K (a.nlog.map (·.1) ++ [op]) = _
  rw [nv_run_snoc, h.nv]
  rfl

theorem seen_onVol (a : Agg) (op : Op) : (a.onVol op).1.seen = a.seen.step op (a.onVol op).2 := by
  show Trace.empty.run ((a.vlog ++ [(op, (a.vol.step op).2)]).map (·.1))
    ((a.vlog ++ [(op, (a.vol.step op).2)]).map (·.2)) = _
  rw [trace_snoc]; rfl

theorem stored_onNV (K : Crc) (a : Agg) (op : NOp) (hc : (a.nv.step K op).1.crc = a.nv.crc) :
    (a.onNV K op).1.stored = a.stored.step a.nv.crc op (a.onNV K op).2 := by
  show NTrace.empty.run (a.nv.step K op).1.crc ((a.nlog ++ [(op, (a.nv.step K op).2)]).map (·.1))
    ((a.nlog ++ [(op, (a.nv.step K op).2)]).map (·.2)) = _
  rw [ntrace_snoc, hc]; rfl

theorem dropped_onNV (K : Crc) (a : Agg) (op : NOp) :
    (a.onNV K op).1.dropped = a.dropped + if isDrop (op, (a.onNV K op).2) then 1 else 0 := by
  show ((a.nlog ++ [(op, (a.nv.step K op).2)]).filter isDrop).length = _
  rw [List.filter_append, List.length_append]
  show a.dropped + _ = _
  congr 1
  show _ = if isDrop (op, (a.nv.step K op).2) then 1 else 0
  by_cases h : isDrop (op, (a.nv.step K op).2) = true
  · simp [h]
  · simp [h]

/-- All but `k` of the records `D`, in order, without anything else. -/
def Moved (D : List (List UInt8)) (C : List (List (Option UInt8))) (k : Nat) : Prop :=
  C.Sublist (D.map fun bs => bs.map some) ∧ D.length = C.length + k

def Agg.Idle (a : Agg) (c : Option (Option Range)) : Prop := a.seen.reading = none ∧ a.vol.consumer = c

def Agg.Busy (a : Agg) (r : Range) (bs : List UInt8) : Prop :=
  a.seen.reading = some (r, bs) ∧ Held a.vol r bs

def Agg.Quiet (a : Agg) (p : Option (Option Range)) : Prop :=
  a.nv.producer = p ∧ a.nv.parked = none ∧ a.stored.pending = none

def Agg.Mv (a : Agg) (extra : List (List UInt8)) : Prop :=
  Moved (a.seen.delivered ++ extra) a.stored.committed a.dropped

def StageOk (a : Agg) : Stage → Prop
  | .spawned => a.Idle none ∧ a.Quiet none ∧ a.Mv []
  | .registered => a.Idle (some none) ∧ a.Quiet none ∧ a.Mv []
  | .loop => a.Idle (some none) ∧ a.Quiet (some none) ∧ a.Mv []
  | .have r => ∃ bs, a.Busy r bs ∧ a.Quiet (some none) ∧ a.Mv []
  | .asleep r => ∃ bs, a.Busy r bs ∧ a.nv.producer = some none ∧ a.stored.pending = none ∧
      (∃ p, a.nv.parked = some p ∧ p.size = r.size ∧ p.t.range.size = r.size + a.nv.core.xb ∧
        p.block = true) ∧ a.Mv []
  | .filling r => ∃ bs, a.Busy r bs ∧
      (∃ R, a.nv.producer = some (some R) ∧ R.size = r.size + a.nv.core.xb) ∧ a.nv.parked = none ∧
      a.stored.pending = some (List.replicate r.size none) ∧ a.Mv []
  | .filled r => ∃ bs, a.Busy r bs ∧ (∃ R, a.nv.producer = some (some R)) ∧ a.nv.parked = none ∧
      a.stored.pending = some (bs.map some) ∧ a.Mv []
  | .finishing r => ∃ bs, a.Busy r bs ∧ a.Quiet (some none) ∧ a.Mv [bs]
  | .leaving => a.Quiet (some none) ∧ a.Mv []
  | .left => a.stored.pending = none ∧ a.Mv []
  | .dead => a.stored.pending = none ∧ a.Mv []
  | .panicked => False

/-- Nothing the flush thread depends on changed. -/
structure Agg.Alike (a a' : Agg) : Prop where
  reading : a'.seen.reading = a.seen.reading
  delivered : a'.seen.delivered = a.seen.delivered
  consumer : a'.vol.consumer = a.vol.consumer
  held : ∀ r bs, Held a.vol r bs → Held a'.vol r bs
  producer : a'.nv.producer = a.nv.producer
  parked : a'.nv.parked = a.nv.parked
  xb : a'.nv.core.xb = a.nv.core.xb
  pending : a'.stored.pending = a.stored.pending
  committed : a'.stored.committed = a.stored.committed
  dropped : a'.dropped = a.dropped

theorem StageOk.alike {a a' : Agg} (h : a.Alike a') {s : Stage} (hs : StageOk a s) : StageOk a' s := by
  obtain ⟨h1, h2, h3, h4, h5, h6, h7, h8, h9, h10⟩ := h
  have hB : ∀ r bs, a.Busy r bs → a'.Busy r bs := fun r bs hb => ⟨h1.trans hb.1, h4 r bs hb.2⟩
  have hM : ∀ e, a.Mv e → a'.Mv e := by
    intro e he; unfold Agg.Mv at he ⊢; rw [h2, h9, h10]; exact he
  cases s with
  | panicked => exact hs
  | spawned =>
    obtain ⟨⟨a1, a2⟩, ⟨a3, a4, a5⟩, a6⟩ := hs
    exact ⟨⟨h1.trans a1, h3.trans a2⟩, ⟨h5.trans a3, h6.trans a4, h8.trans a5⟩, hM _ a6⟩
  | registered =>
    obtain ⟨⟨a1, a2⟩, ⟨a3, a4, a5⟩, a6⟩ := hs
    exact ⟨⟨h1.trans a1, h3.trans a2⟩, ⟨h5.trans a3, h6.trans a4, h8.trans a5⟩, hM _ a6⟩
  | loop =>
    obtain ⟨⟨a1, a2⟩, ⟨a3, a4, a5⟩, a6⟩ := hs
    exact ⟨⟨h1.trans a1, h3.trans a2⟩, ⟨h5.trans a3, h6.trans a4, h8.trans a5⟩, hM _ a6⟩
  | «have» r =>
    obtain ⟨bs, hb, ⟨a3, a4, a5⟩, a6⟩ := hs
    exact ⟨bs, hB _ _ hb, ⟨h5.trans a3, h6.trans a4, h8.trans a5⟩, hM _ a6⟩
  | asleep r =>
    obtain ⟨bs, hb, a3, a4, ⟨p, a5, a6, a7, a8⟩, a9⟩ := hs
    exact ⟨bs, hB _ _ hb, h5.trans a3, h8.trans a4, ⟨p, h6.trans a5, a6, by rw [h7]; exact a7, a8⟩, hM _ a9⟩
  | filling r =>
    obtain ⟨bs, hb, ⟨R, a3, a4⟩, a5, a6, a7⟩ := hs
    exact ⟨bs, hB _ _ hb, ⟨R, h5.trans a3, by rw [h7]; exact a4⟩, h6.trans a5, h8.trans a6, hM _ a7⟩
  | filled r =>
    obtain ⟨bs, hb, ⟨R, a3⟩, a5, a6, a7⟩ := hs
    exact ⟨bs, hB _ _ hb, ⟨R, h5.trans a3⟩, h6.trans a5, h8.trans a6, hM _ a7⟩
  | finishing r =>
    obtain ⟨bs, hb, ⟨a3, a4, a5⟩, a6⟩ := hs
    exact ⟨bs, hB _ _ hb, ⟨h5.trans a3, h6.trans a4, h8.trans a5⟩, hM _ a6⟩
  | leaving =>
    obtain ⟨⟨a3, a4, a5⟩, a6⟩ := hs
    exact ⟨⟨h5.trans a3, h6.trans a4, h8.trans a5⟩, hM _ a6⟩
  | left => exact ⟨h8.trans hs.1, hM _ hs.2⟩
  | dead => exact ⟨h8.trans hs.1, hM _ hs.2⟩

theorem Agg.Alike.goto {a a' : Agg} (h : a.Alike a') (s : Stage) : a.Alike (a'.goto s) :=
  ⟨h.1, h.2, h.3, h.4, h.5, h.6, h.7, h.8, h.9, h.10⟩

/-- Changing the stage changes nothing else. -/
theorem stageOk_goto {a : Agg} {s s' : Stage} (h : StageOk a s) : StageOk (a.goto s') s :=
  h.alike ⟨rfl, rfl, rfl, fun _ _ x => x, rfl, rfl, rfl, rfl, rfl, rfl⟩

theorem trace_user (t : Trace) (op : Op) (o : Out) {flag : Bool} (h : op.byUser flag = true) :
    (t.step op o).reading = t.reading ∧ (t.step op o).delivered = t.delivered := by
  cases op with
  | reserve p n => unfold Trace.step; split <;> simp_all
  | write p x b => unfold Trace.step; split <;> simp_all
  | commit p => unfold Trace.step; split <;> simp_all
  | waitForDrain => exact ⟨rfl, rfl⟩
  | lock => exact ⟨rfl, rfl⟩
  | unlock => exact ⟨rfl, rfl⟩
  | shutdown => exact ⟨rfl, rfl⟩
  | registerConsumer => cases h
  | dropConsumer => cases h
  | startRead _ => cases h
  | finishRead => cases h

theorem ntrace_user (crc : Bool) (t : NTrace) (op : NOp) (o : Out) {flag : Bool} (h : op.byUser flag = true) :
    (t.step crc op o).pending = t.pending ∧ (t.step crc op o).committed = t.committed := by
  cases op with
  | registerConsumer => exact ⟨rfl, rfl⟩
  | registerCursor => unfold NTrace.step; split <;> simp_all
  | dropConsumer => exact ⟨rfl, rfl⟩
  | startRead _ => unfold NTrace.step; split <;> simp_all
  | finishRead => unfold NTrace.step; split <;> simp_all
  | cursorRead _ => unfold NTrace.step; split <;> simp_all
  | ack => unfold NTrace.step; split <;> simp_all
  | waitForDrain => exact ⟨rfl, rfl⟩
  | alter _ _ => exact ⟨rfl, rfl⟩
  | shutdown => exact ⟨rfl, rfl⟩
  | registerProducer => cases h
  | dropProducer => cases h
  | reserve _ _ => cases h
  | resume => cases h
  | write _ _ => cases h
  | commit => cases h
  | lock => cases h
  | unlock => cases h
  | restart => cases h

theorem alike_vol (a : Agg) (op : Op) {flag : Bool} (h : op.byUser flag = true) : a.Alike (a.onVol op).1 := by
  have ht := trace_user a.seen op (a.onVol op).2 h
  rw [← seen_onVol] at ht
  exact ⟨ht.1, ht.2, user_consumer a.vol op flag h, fun r bs hh => hh.user op h, rfl, rfl, rfl, rfl, rfl, rfl⟩

theorem user_keeps (K : Crc) (s : NV) (op : NOp) {flag : Bool} (h : op.byUser flag = true) :
    (s.step K op).1.producer = s.producer ∧ (s.step K op).1.parked = s.parked ∧
    (s.step K op).1.core.xb = s.core.xb ∧ (s.step K op).1.crc = s.crc := by
  rcases user_cases h with h | ⟨rfl, _⟩
  · have := same_user K s op h
    exact ⟨this.producer, this.parked, fixed_xb this.fixed, this.crc⟩
  · simp only [NV.step, NOp.usesProducer, Bool.and_false, Bool.false_eq_true, if_false, NV.step']
    refine ⟨by trivial, by trivial, ?_, by trivial⟩
    unfold Core.doShutdown
    split <;> rfl

theorem isDrop_user {op : NOp} {flag : Bool} (h : op.byUser flag = true) (o : Out) : isDrop (op, o) = false := by
  cases op <;> first | rfl | cases h

theorem alike_nv (K : Crc) (a : Agg) (op : NOp) {flag : Bool} (h : op.byUser flag = true) :
    a.Alike (a.onNV K op).1 := by
  obtain ⟨k1, k2, k3, k4⟩ := user_keeps K a.nv op h
  have ht := ntrace_user a.nv.crc a.stored op (a.onNV K op).2 h
  rw [← stored_onNV K a op k4] at ht
  refine ⟨rfl, rfl, rfl, fun _ _ x => x, k1, k2, k3, ht.1, ht.2, ?_⟩
  rw [dropped_onNV, isDrop_user h]; simp

theorem nv_step_free (K : Crc) (s : NV) (op : NOp) (h : s.parked = none) : s.step K op = s.step' K op := by
  unfold NV.step; rw [h]; rfl

/-- Everything: the logs, and the stage of the flush thread. -/
structure AInv (K : Crc) (len : Nat) (mem : Mem) (s0 : NV) (a : Agg) : Prop where
  log : Logged K len mem s0 a
  ok : StageOk a a.stage

theorem moved_cons {D : List (List UInt8)} {C : List (List (Option UInt8))} {k : Nat} (h : Moved D C k)
    (bs : List UInt8) : Moved (D ++ [bs]) (C ++ [bs.map some]) k := by
  obtain ⟨h1, h2⟩ := h
  refine ⟨?_, by simp; omega⟩
  rw [List.map_append]
  exact h1.append (List.Sublist.refl _)

theorem moved_drop {D : List (List UInt8)} {C : List (List (Option UInt8))} {k : Nat} (h : Moved D C k)
    (bs : List UInt8) : Moved (D ++ [bs]) C (k + 1) := by
  obtain ⟨h1, h2⟩ := h
  refine ⟨?_, by simp; omega⟩
  rw [List.map_append]
  exact h1.trans (List.sublist_append_left _ _)

theorem isDrop_err (op : NOp) (e : Code) (h : e ≠ .unavailable) :
    isDrop (op, Out.slice (.err e)) = false := by
  cases op <;> cases e <;> first | rfl | exact absurd rfl h

theorem afterReserve_err (r : Range) (e : Code) (h : e ≠ .unavailable) :
    afterReserve r (.slice (.err e)) = .leaving := by
  cases e <;> first | rfl | exact absurd rfl h

/-- What `reserve` and `resume` do for the thread. -/
theorem stage_reserve {a : Agg} {K : Crc} {r : Range} {bs : List UInt8} {op : NOp} {x : Res Range}
    (ho : (a.nv.step K op).2 = .slice x) (hop : (∃ n b, op = .reserve n b) ∨ op = .resume)
    (hout : Outcome a.nv (a.nv.step K op).1 r.size x) (hb : a.Busy r bs) (hp : a.stored.pending = none)
    (hm : a.Mv []) :
    StageOk ((a.onNV K op).1.goto (afterReserve r (a.onNV K op).2)) (afterReserve r (a.onNV K op).2) := by
  have eo : (a.onNV K op).2 = .slice x := ho
  have hst := stored_onNV K a op hout.crc
  have hdr := dropped_onNV K a op
  rw [eo] at hst hdr
  rw [eo]
  have hb' : (a.onNV K op).1.Busy r bs := hb
  have hxb : (a.nv.step K op).1.core.xb = a.nv.core.xb := fixed_xb hout.fixed
  apply stageOk_goto
  have hM0 : ∀ k, (a.onNV K op).1.dropped = a.dropped + k →
      (a.onNV K op).1.stored.committed = a.stored.committed →
      Moved a.seen.delivered (a.onNV K op).1.stored.committed a.dropped := by
    intro k _ h2
    unfold Agg.Mv at hm
    rw [List.append_nil] at hm
    rw [h2]; exact hm
  have hM1 : (a.onNV K op).1.dropped = a.dropped →
      (a.onNV K op).1.stored.committed = a.stored.committed → (a.onNV K op).1.Mv [] := by
    intro h1 h2
    have := hM0 0 (by rw [h1]; rfl) h2
    unfold Agg.Mv
    rw [List.append_nil, h1]
    exact this
  have hst' : ∀ y, x = .ok y → (a.onNV K op).1.stored = { a.stored with pending := some (List.replicate y.size none) } := by
    rintro y rfl
    rw [hst]
    rcases hop with ⟨n, b, rfl⟩ | rfl <;> rfl
  have hst2 : (∀ y, x ≠ .ok y) → (a.onNV K op).1.stored = a.stored := by
    intro hne
    rw [hst]
    cases x with
    | ok y => exact absurd rfl (hne y)
    | err e => rcases hop with ⟨n, b, rfl⟩ | rfl <;> rfl
    | blocked => rcases hop with ⟨n, b, rfl⟩ | rfl <;> rfl
  cases x with
  | ok y =>
    obtain ⟨h1, h2, R, h3, h4⟩ := hout.ok y rfl
    have hs := hst' y rfl
    have hd : (a.onNV K op).1.dropped = a.dropped := by
      rw [hdr]; rcases hop with ⟨n, b, rfl⟩ | rfl <;> rfl
    refine ⟨bs, hb', ⟨R, h3, ?_⟩, h2, ?_, hM1 hd (by rw [hs])⟩
    · show R.size = r.size + (a.nv.step K op).1.core.xb
      rw [hxb]; exact h4
    · rw [hs, h1]
  | blocked =>
    obtain ⟨h1, p, h2, h3, h4, h5⟩ := hout.blocked rfl
    have hs := hst2 (by intro y h; cases h)
    have hd : (a.onNV K op).1.dropped = a.dropped := by
      rw [hdr]; rcases hop with ⟨n, b, rfl⟩ | rfl <;> rfl
    refine ⟨bs, hb', h1, by rw [hs]; exact hp, ⟨p, h2, h3, ?_, h5⟩, hM1 hd (by rw [hs])⟩
    show p.t.range.size = r.size + (a.nv.step K op).1.core.xb
    rw [hxb]; exact h4
  | err e =>
    obtain ⟨h1, h2⟩ := hout.err e rfl
    have hs := hst2 (by intro y h; cases h)
    have hq : (a.onNV K op).1.Quiet (some none) := ⟨h1, h2, by rw [hs]; exact hp⟩
    by_cases he : e = .unavailable
    · subst he
      have hd : (a.onNV K op).1.dropped = a.dropped + 1 := by
        rw [hdr]; rcases hop with ⟨n, b, rfl⟩ | rfl <;> rfl
      refine ⟨bs, hb', hq, ?_⟩
      unfold Agg.Mv
      rw [hd]
      exact moved_drop (hM0 1 hd (by rw [hs])) bs
    · have hd : (a.onNV K op).1.dropped = a.dropped := by
        rw [hdr]
        have : isDrop (op, Out.slice (.err e)) = false := by
          exact isDrop_err op e he
        rw [this]; simp
      have hst : afterReserve r (.slice (.err e)) = .leaving := by
        exact afterReserve_err r e he
      rw [hst]
      exact ⟨hq, hM1 hd (by rw [hs])⟩

theorem AInv.sim {K : Crc} {len : Nat} {mem : Mem} {s0 : NV} {a : Agg} (h : AInv K len mem s0 a)
    (hlen : len < 2 ^ 32) : ∃ f U O, Sim a.vol f U O := by
  obtain ⟨U, O, h1, _⟩ := Sim.run (a.vlog.map (·.1)) (Sim.new len mem hlen)
  rw [h.log.vol] at h1
  exact ⟨_, U, O, h1⟩

theorem overlay_full (bs : List UInt8) (n : Nat) (h : n = bs.length) :
    overlay (List.replicate n none) 0 bs = bs.map some := by
  subst h
  simp [overlay]

/-- One critical section of the flush thread. -/
theorem AInv.thread {K : Crc} {len : Nat} {mem : Mem} {s0 : NV} {a : Agg} (h : AInv K len mem s0 a)
    (hlen : len < 2 ^ 32) : AInv K len mem s0 (a.thread K) := by
  obtain ⟨hl, hk⟩ := h
  have hsim : ∃ f U O, Sim a.vol f U O := AInv.sim ⟨hl, hk⟩ hlen
  cases hst : a.stage with
  | spawned =>
    rw [hst] at hk
    obtain ⟨⟨a1, a2⟩, ⟨a3, a4, a5⟩, a6⟩ := hk
    have e : a.vol.step .registerConsumer = ({ a.vol with consumer := some none }, .unit (.ok ())) := by
      simp only [Vol.step, Vol.registerConsumer, a2]
    have e2 : a.onVol .registerConsumer = ((a.onVol .registerConsumer).1, .unit (.ok ())) := by
      unfold Agg.onVol; rw [e]
    have et : a.thread K = (a.onVol .registerConsumer).1.goto .registered := by
      unfold Agg.thread; rw [hst]; simp only; rw [e2]
    rw [et]
    refine ⟨(hl.onVol _).goto _, stageOk_goto ?_⟩
    have hs := seen_onVol a .registerConsumer
    rw [e2] at hs
    have hs : (a.onVol .registerConsumer).1.seen = a.seen := hs
    refine ⟨⟨by rw [hs]; exact a1, ?_⟩, ⟨a3, a4, a5⟩, ?_⟩
    · show (a.vol.step .registerConsumer).1.consumer = _
      rw [e]
    · unfold Agg.Mv; rw [hs]; exact a6
  | registered =>
    rw [hst] at hk
    obtain ⟨⟨a1, a2⟩, ⟨a3, a4, a5⟩, a6⟩ := hk
    have e : a.nv.step K .registerProducer = ({ a.nv with producer := some none }, .unit (.ok ())) := by
      rw [nv_step_free K a.nv _ a4]
      simp only [NV.step', a3]
    have e2 : a.onNV K .registerProducer = ((a.onNV K .registerProducer).1, .unit (.ok ())) := by
      unfold Agg.onNV; rw [e]
    have et : a.thread K = (a.onNV K .registerProducer).1.goto .loop := by
      unfold Agg.thread; rw [hst]; simp only; rw [e2]
    rw [et]
    have hc : (a.nv.step K .registerProducer).1.crc = a.nv.crc := by rw [e]
    refine ⟨(hl.onNV _ hc).goto _, stageOk_goto ?_⟩
    have hs := stored_onNV K a .registerProducer hc
    rw [e2] at hs
    have hs : (a.onNV K .registerProducer).1.stored = a.stored := hs
    have hd := dropped_onNV K a .registerProducer
    rw [e2] at hd
    have hd : (a.onNV K .registerProducer).1.dropped = a.dropped := hd
    refine ⟨⟨a1, a2⟩, ⟨?_, ?_, by rw [hs]; exact a5⟩, ?_⟩
    · show (a.nv.step K .registerProducer).1.producer = _
      rw [e]
    · show (a.nv.step K .registerProducer).1.parked = _
      rw [e]; exact a4
    · unfold Agg.Mv; rw [hs, hd]; exact a6
  | loop =>
    rw [hst] at hk
    by_cases hfl : a.flag = true
    · have et : a.thread K = a.goto .leaving := by
        unfold Agg.thread; rw [hst]; simp only; rw [if_pos hfl]
      rw [et]
      exact ⟨hl.goto _, stageOk_goto (show StageOk a .leaving from ⟨hk.2.1, hk.2.2⟩)⟩
    · obtain ⟨⟨a1, a2⟩, hq, a6⟩ := hk
      obtain ⟨f, U, O, hs⟩ := hsim
      obtain ⟨s1, s2, ⟨r, s3⟩, s4⟩ := startRead_held hs a2 true
      have hsn := seen_onVol a (.startRead true)
      have e2 : (a.onVol (.startRead true)).2 = .record r := s3
      rw [e2] at hsn
      have ep : a.onVol (.startRead true) = ((a.onVol (.startRead true)).1, .record r) := by
        rw [← e2]
      cases r with
      | ok x =>
        have et : a.thread K = (a.onVol (.startRead true)).1.goto (.have x.1) := by
          unfold Agg.thread; rw [hst]; simp only; rw [if_neg hfl, ep]
        rw [et]
        refine ⟨(hl.onVol _).goto _, stageOk_goto ?_⟩
        refine ⟨x.2, ⟨?_, s1 x s3⟩, hq, ?_⟩
        · rw [hsn]; rfl
        · unfold Agg.Mv
          rw [hsn]; exact a6
      | blocked =>
        have et : a.thread K = (a.onVol (.startRead true)).1 := by
          unfold Agg.thread; rw [hst]; simp only; rw [if_neg hfl, ep]
        rw [et]
        refine ⟨hl.onVol _, ?_⟩
        have : (a.onVol (.startRead true)).1.stage = .loop := hst
        rw [this]
        refine ⟨⟨by rw [hsn]; exact a1, s4 s3⟩, hq, ?_⟩
        unfold Agg.Mv
        rw [hsn]; exact a6
      | err e =>
        have et : a.thread K = (a.onVol (.startRead true)).1.goto .leaving := by
          unfold Agg.thread; rw [hst]; simp only; rw [if_neg hfl, ep]
        rw [et]
        refine ⟨(hl.onVol _).goto _, stageOk_goto (show StageOk _ .leaving from ⟨hq, ?_⟩)⟩
        unfold Agg.Mv
        rw [hsn]; exact a6
  | «have» r =>
    rw [hst] at hk
    obtain ⟨bs, hb, ⟨a3, a4, a5⟩, a6⟩ := hk
    have et : a.thread K = (a.onNV K (.reserve r.size true)).1.goto
        (afterReserve r (a.onNV K (.reserve r.size true)).2) := by
      unfold Agg.thread; rw [hst]
    rw [et]
    have e := nv_step_free K a.nv (.reserve r.size true) a4
    have ho := outcome_reserve K a.nv r.size a3 a4
    have e1 : (a.nv.step K (.reserve r.size true)).1 = (a.nv.reserve K r.size true).1 := by rw [e]; rfl
    have e2 : (a.nv.step K (.reserve r.size true)).2 = .slice (a.nv.reserve K r.size true).2 := by rw [e]; rfl
    rw [← e1] at ho
    exact ⟨(hl.onNV _ ho.crc).goto _, stage_reserve e2 (Or.inl ⟨_, _, rfl⟩) ho hb a5 a6⟩
  | asleep r =>
    rw [hst] at hk
    obtain ⟨bs, hb, a3, a4, ⟨p, a5, a6, a7, a8⟩, a9⟩ := hk
    have et : a.thread K = (a.onNV K .resume).1.goto (afterReserve r (a.onNV K .resume).2) := by
      unfold Agg.thread; rw [hst]
    rw [et]
    have ho := outcome_resume K a.nv r.size a3 a5 a6 a7 a8
    have e1 : (a.nv.step K .resume).1 = (a.nv.resume K).1 := by
      simp only [NV.step, NOp.usesProducer, Bool.and_false, Bool.false_eq_true, if_false]; rfl
    have e2 : (a.nv.step K .resume).2 = .slice (a.nv.resume K).2 := by
      simp only [NV.step, NOp.usesProducer, Bool.and_false, Bool.false_eq_true, if_false]; rfl
    rw [← e1] at ho
    exact ⟨(hl.onNV _ ho.crc).goto _, stage_reserve e2 (Or.inr rfl) ho hb a4 a9⟩
  | filling r =>
    rw [hst] at hk
    obtain ⟨bs, hb, ⟨R, a3, a4⟩, a5, a6, a7⟩ := hk
    obtain ⟨hb1, hb2⟩ := hb.2.bytes
    have hw : a.nv.write 0 bs =
        ({ a.nv with core := { a.nv.core with
            mem := writeMem a.nv.core.mem (R.start + a.nv.core.xb + 0) bs } }, .ok ()) := by
      unfold NV.write
      simp only [a3]
      rw [if_pos (by omega)]
    have e : a.nv.step K (.write 0 bs) = ((a.nv.write 0 bs).1, .unit (.ok ())) := by
      rw [nv_step_free K a.nv _ a5, hw]
      show ((a.nv.write 0 bs).1, Out.unit (a.nv.write 0 bs).2) = _
      rw [hw]
    have e2 : a.onNV K (.write 0 bs) = ((a.onNV K (.write 0 bs)).1, .unit (.ok ())) := by
      unfold Agg.onNV; rw [e]
    have et : a.thread K = (a.onNV K (.write 0 bs)).1.goto (.filled r) := by
      unfold Agg.thread; rw [hst]; simp only; rw [hb1, e2]
    rw [et]
    have hc : (a.nv.step K (.write 0 bs)).1.crc = a.nv.crc := by rw [e, hw]
    refine ⟨(hl.onNV _ hc).goto _, stageOk_goto ?_⟩
    have hs := stored_onNV K a (.write 0 bs) hc
    rw [e2] at hs
    have hs : (a.onNV K (.write 0 bs)).1.stored =
      { a.stored with pending := a.stored.pending.map fun d => overlay d 0 bs } := hs
    have hd := dropped_onNV K a (.write 0 bs)
    rw [e2] at hd
    have hd : (a.onNV K (.write 0 bs)).1.dropped = a.dropped := hd
    refine ⟨bs, hb, ⟨R, ?_⟩, ?_, ?_, ?_⟩
    · show (a.nv.step K (.write 0 bs)).1.producer = _
      rw [e, hw]; exact a3
    · show (a.nv.step K (.write 0 bs)).1.parked = _
      rw [e, hw]; exact a5
    · rw [hs, a6]
      simp only [Option.map_some]
      rw [overlay_full bs _ hb2]
    · unfold Agg.Mv; rw [hs, hd]; exact a7
  | filled r =>
    rw [hst] at hk
    obtain ⟨bs, hb, ⟨R, a3⟩, a5, a6, a7⟩ := hk
    have hw : (a.nv.commit K).2 = .ok () ∧ (a.nv.commit K).1.producer = some none ∧
        (a.nv.commit K).1.parked = none ∧ (a.nv.commit K).1.crc = a.nv.crc := by
      unfold NV.commit
      rw [a3]
      exact ⟨rfl, rfl, a5, rfl⟩
    have e : a.nv.step K .commit = ((a.nv.commit K).1, .unit (.ok ())) := by
      rw [nv_step_free K a.nv _ a5]
      show ((a.nv.commit K).1, Out.unit (a.nv.commit K).2) = _
      rw [hw.1]
    have e2 : a.onNV K .commit = ((a.onNV K .commit).1, .unit (.ok ())) := by
      unfold Agg.onNV; rw [e]
    have et : a.thread K = (a.onNV K .commit).1.goto (.finishing r) := by
      unfold Agg.thread; rw [hst]; simp only; rw [e2]
    rw [et]
    have hc : (a.nv.step K .commit).1.crc = a.nv.crc := by rw [e]; exact hw.2.2.2
    refine ⟨(hl.onNV _ hc).goto _, stageOk_goto ?_⟩
    have hs := stored_onNV K a .commit hc
    rw [e2] at hs
    have hs : (a.onNV K .commit).1.stored =
      { a.stored with committed := a.stored.committed ++ a.stored.pending.toList, pending := none } := hs
    have hd := dropped_onNV K a .commit
    rw [e2] at hd
    have hd : (a.onNV K .commit).1.dropped = a.dropped := hd
    refine ⟨bs, hb, ⟨?_, ?_, ?_⟩, ?_⟩
    · show (a.nv.step K .commit).1.producer = _
      rw [e]; exact hw.2.1
    · show (a.nv.step K .commit).1.parked = _
      rw [e]; exact hw.2.2.1
    · rw [hs]
    · unfold Agg.Mv at a7 ⊢
      rw [hs, hd, a6]
      rw [List.append_nil] at a7
      exact moved_cons a7 bs
  | finishing r =>
    rw [hst] at hk
    obtain ⟨bs, hb, hq, a6⟩ := hk
    obtain ⟨⟨w, hf⟩, hcn⟩ := finishRead_held hb.2
    have e2 : a.onVol .finishRead = ((a.onVol .finishRead).1, .finished (.ok w)) := by
      have : (a.onVol .finishRead).2 = .finished (.ok w) := hf
      rw [← this]
    have et : a.thread K = (a.onVol .finishRead).1.goto .loop := by
      unfold Agg.thread; rw [hst]; simp only; rw [e2]
    rw [et]
    refine ⟨(hl.onVol _).goto _, stageOk_goto ?_⟩
    have hs := seen_onVol a .finishRead
    rw [e2] at hs
    have hs : (a.onVol .finishRead).1.seen = { a.seen with
      delivered := a.seen.delivered ++ (a.seen.reading.toList.map (·.2)), reading := none } := hs
    refine ⟨⟨by rw [hs], hcn⟩, hq, ?_⟩
    unfold Agg.Mv at a6 ⊢
    rw [hs, hb.1]
    rw [List.append_nil]
    exact a6
  | leaving =>
    rw [hst] at hk
    obtain ⟨⟨a3, a4, a5⟩, a6⟩ := hk
    have e : a.nv.step K .dropProducer = ({ a.nv with producer := none }, .unit (.ok ())) := by
      rw [nv_step_free K a.nv _ a4]; rfl
    have et : a.thread K = (a.onNV K .dropProducer).1.goto .left := by
      unfold Agg.thread; rw [hst]
    rw [et]
    have hc : (a.nv.step K .dropProducer).1.crc = a.nv.crc := by rw [e]
    refine ⟨(hl.onNV _ hc).goto _, stageOk_goto ?_⟩
    have hs := stored_onNV K a .dropProducer hc
    have e2 : (a.onNV K .dropProducer).2 = .unit (.ok ()) := by
      unfold Agg.onNV; rw [e]
    have hd := dropped_onNV K a .dropProducer
    rw [e2] at hd hs
    have hd : (a.onNV K .dropProducer).1.dropped = a.dropped := hd
    refine ⟨by rw [hs]; rfl, ?_⟩
    unfold Agg.Mv; rw [hs, hd]; exact a6
  | left =>
    rw [hst] at hk
    have et : a.thread K = (a.onVol .dropConsumer).1.goto .dead := by
      unfold Agg.thread; rw [hst]
    rw [et]
    refine ⟨(hl.onVol _).goto _, stageOk_goto ?_⟩
    have hs := seen_onVol a .dropConsumer
    refine ⟨hk.1, ?_⟩
    unfold Agg.Mv
    have : (a.onVol .dropConsumer).1.seen.delivered = a.seen.delivered := by rw [hs]; rfl
    rw [this]; exact hk.2
  | dead =>
    have et : a.thread K = a := by
      unfold Agg.thread; rw [hst]
    rw [et]; exact ⟨hl, hk⟩
  | panicked =>
    rw [hst] at hk; exact hk.elim

theorem AInv.step {K : Crc} {len : Nat} {mem : Mem} {s0 : NV} {a : Agg} (h : AInv K len mem s0 a)
    (hlen : len < 2 ^ 32) (op : AOp) : AInv K len mem s0 (a.step K op) := by
  cases op with
  | vol op =>
    simp only [Agg.step]
    split
    · rename_i hu
      exact ⟨h.log.onVol op, h.ok.alike (alike_vol a op hu)⟩
    · exact h
  | nv op =>
    simp only [Agg.step]
    split
    · rename_i hu
      exact ⟨h.log.onNV op (user_keeps K a.nv op hu).2.2.2, h.ok.alike (alike_nv K a op hu)⟩
    · exact h
  | thread => exact h.thread hlen
  | stop =>
    exact ⟨⟨h.log.vol, h.log.nv, h.log.crc⟩,
      h.ok.alike ⟨rfl, rfl, rfl, fun _ _ x => x, rfl, rfl, rfl, rfl, rfl, rfl⟩⟩

theorem AInv.run {K : Crc} {len : Nat} {mem : Mem} {s0 : NV} (hlen : len < 2 ^ 32) (ops : List AOp) :
    ∀ {a : Agg}, AInv K len mem s0 a → AInv K len mem s0 (a.run K ops) := by
  induction ops with
  | nil => intro a h; exact h
  | cons op ops ih => intro a h; exact ih (h.step hlen op)

theorem AInv.init (K : Crc) (volatileSize nvSize : Nat) (mem : Mem) (s0 : NV) (a : Agg)
    (h : Agg.new volatileSize nvSize mem s0 = some a) (hp : s0.producer = none) (hk : s0.parked = none) :
    AInv K volatileSize mem s0 a := by
  unfold Agg.new at h
  split at h
  · cases h
  · cases h
    exact ⟨⟨rfl, rfl, rfl⟩, ⟨rfl, rfl⟩, ⟨hp, hk, rfl⟩, List.Sublist.refl _, rfl⟩

end Verif.Buffer
