import Verif.Buffer.NVCrash
import Mathlib.Data.Nat.Pairing

/-
C07: crashes in the middle of calls.
-/
namespace Verif.Buffer

/-- What happens to a file: calls that return, and calls that the process does not survive.  `crash op k`
dies after `k` of the stores of `op`. -/
inductive Event where
  | call (op : NOp)
  | crash (op : NOp) (k : Nat)
  deriving DecidableEq, Repr

def Event.op : Event → NOp
  | .call op => op
  | .crash op _ => op

/-- The buffer after an event.  When the next process reports data loss, the file is deleted and created
again (aggregate_ring_buffer.rs:148-183). -/
def NV.event (K : Crc) (len : Nat) (crc overwrite blockOnRead : Bool) (s : NV) : Event → NV
  | .call op => (s.step K op).1
  | .crash op k => ((s.crash K op k).reopen K).getD (NV.new K len crc overwrite blockOnRead)

def nvLife (K : Crc) (len : Nat) (crc overwrite blockOnRead : Bool) (es : List Event) : NV :=
  es.foldl (NV.event K len crc overwrite blockOnRead) (NV.new K len crc overwrite blockOnRead)

/-- The header checksum tells apart the index fields at any two points of each interrupted call. -/
def Distinct (K : Crc) (len : Nat) (crc overwrite blockOnRead : Bool) : NV → List Event → Prop
  | _, [] => True
  | s, e :: es =>
    (match e with
      | .call _ => True
      | .crash op _ => NoCollide K (s.stores K op) s.file) ∧
    Distinct K len crc overwrite blockOnRead (s.event K len crc overwrite blockOnRead e) es

/-- A call that makes room by overwriting. -/
def NOp.reserves : NOp → Bool
  | .reserve _ _ | .resume => true
  | _ => false

theorem sameCfg_step {K : Crc} {s : NV} {op : NOp} {q q' : PQ} (h : NVSim K s q)
    (h' : NVSim K (s.step K op).1 q') : SameCfg s (s.step K op).1 := by
  have hc := step_cfg K s op
  refine ⟨(congrArg Prod.fst hc).symm, (congrArg (fun x => x.2.2.1) hc).symm,
    (congrArg (fun x => x.2.1) hc).symm, (congrArg (fun x => x.2.2.2) hc).symm, ?_⟩
  rw [h.core.inv.panic, h'.core.inv.panic]

/-- What holds between any two events. -/
structure Alive (K : Crc) (s : NV) (q : PQ) : Prop where
  sim : NVSim K s q
  firm : Firm K q
  whole : q.broken = false
  plain : ∀ n, q.reader ≠ some (.cursor n)

theorem Alive.new (K : Crc) (len : Nat) (crc overwrite blockOnRead : Bool) (h : len < 2 ^ 32) :
    Alive K (NV.new K len crc overwrite blockOnRead) (PQ.new crc overwrite) :=
  ⟨NVSim.new K len crc overwrite blockOnRead h,
    ⟨(fun it h => by cases h), (fun it h => by cases h), (fun p h => by cases h)⟩, rfl, (fun n h => by cases h)⟩

theorem Alive.call {K : Crc} {s : NV} {q : PQ} (h : Alive K s q) (op : NOp) (ht : op.tame = true) :
    ∃ q' o, Alive K (s.step K op).1 q' ∧ q.steps K op q' o ∧ q'.crc = q.crc := by
  obtain ⟨q', h1, h2⟩ := h.sim.step op
  obtain ⟨a1, a2, a3⟩ := tame_step h1 ht h.plain h.whole
  exact ⟨q', _, ⟨h2 a2, h.firm.step h1 a2 (by rintro a b rfl; cases ht), a2, a1⟩, h1, a3⟩

theorem Alive.reopened {K : Crc} {s1 : NV} {q1 : PQ} (h : NVSim K s1 { q1.abandon with reader := none, cpos := some 0 })
    (hf : Firm K q1) (hb : q1.broken = false) :
    Alive K s1 { q1.abandon with reader := none, cpos := some 0 } :=
  ⟨h, ⟨hf.abandon.items, hf.abandon.holes, hf.abandon.pend⟩, hb, (fun n e => by cases e)⟩

/-- What the next process finds after a crash. -/
theorem Alive.crash {K : Crc} {s : NV} {q : PQ} (h : Alive K s q) (op : NOp) (ht : op.tame = true)
    (nc : NoCollide K (s.stores K op) s.file) (k : Nat) :
    (s.crash K op k).reopen K = none ∨
    ∃ s1 q1, (s.crash K op k).reopen K = some s1 ∧
      Alive K s1 { q1.abandon with reader := none, cpos := some 0 } ∧
      ((∃ o, q.steps K op q1 o ∧ NVSim K (s.step K op).1 q1 ∧ q1.crc = q.crc) ∨ Left K (Damages q op) q q1) := by
  have hop : ∀ a b, op ≠ .alter a b := by rintro a b rfl; cases ht
  rcases crash_found h.sim op hop nc k with e | e | ⟨q1, ⟨s1, e1, e2⟩, e3⟩
  · exact Or.inl e
  · right
    obtain ⟨q', o, h1, h2, h3⟩ := h.call op ht
    obtain ⟨s1, g1, g2⟩ := opens_of h1.sim (sameCfg_step h.sim h1.sim)
    refine ⟨s1, q', ?_, .reopened g2 h1.firm h1.whole, Or.inl ⟨o, h2, h1.sim, h3⟩⟩
    unfold NV.crash
    rw [e]; exact g1
  · exact Or.inr ⟨s1, q1, e1, .reopened e2 (h.firm.left e3) (e3.broken.trans h.whole), Or.inr e3⟩

theorem alive_life {K : Crc} {len : Nat} (hlen : len < 2 ^ 32) {crc overwrite blockOnRead : Bool}
    (es : List Event) : ∀ {s : NV} {q : PQ}, Alive K s q → (∀ e ∈ es, e.op.tame = true) →
    Distinct K len crc overwrite blockOnRead s es →
    ∃ q', Alive K (es.foldl (NV.event K len crc overwrite blockOnRead) s) q' := by
  induction es with
  | nil => intro s q h _ _; exact ⟨q, h⟩
  | cons e es ih =>
    intro s q h ht hd
    have ht1 := ht e (by simp)
    have : ∃ q1, Alive K (s.event K len crc overwrite blockOnRead e) q1 := by
      cases e with
      | call op =>
        obtain ⟨q1, _, h1, _⟩ := h.call op ht1
        exact ⟨q1, h1⟩
      | crash op k =>
        have nc : NoCollide K (s.stores K op) s.file := hd.1
        rcases h.crash op ht1 nc k with e | ⟨s1, q1, e, h1, _⟩
        · refine ⟨PQ.new crc overwrite, ?_⟩
          simp only [NV.event, e, Option.getD_none]
          exact .new K len crc overwrite blockOnRead hlen
        · refine ⟨{ q1.abandon with reader := none, cpos := some 0 }, ?_⟩
          simp only [NV.event, e, Option.getD_some]
          exact h1
    obtain ⟨q1, h1⟩ := this
    exact ih h1 (fun e he => ht e (by simp [he])) hd.2

/-! ### What is read -/

theorem unreadQ_eq {K : Crc} {q q1 : PQ} (h : q1.crc = q.crc) :
    (q1.items.filter (q1.passes K)).map q1.slice = (q1.items.filter (q.passes K)).map q.slice := by
  have h1 : q1.passes K = q.passes K := by funext it; simp only [PQ.passes, h]
  have h2 : q1.slice = q.slice := by funext it; simp only [PQ.slice, PQ.hb, h]
  rw [h1, h2]

theorem filter_drop_bad {K : Crc} {q : PQ} {n : Nat} (h : ∀ x ∈ q.items.take n, q.passes K x = false) :
    q.items.filter (q.passes K) = (q.items.drop n).filter (q.passes K) := by
  conv => lhs; rw [← List.take_append_drop n q.items]
  rw [List.filter_append, List.filter_eq_nil_iff.2 (fun x hx => by simp [h x hx]), List.nil_append]

/-- What is left of the records after a crash, compared to what could be read before. -/
theorem left_unread {K : Crc} {D : Prop} {q q1 : PQ} (hf : Firm K q) (hl : Left K D q q1) :
    (q1.items.filter (q1.passes K)).map q1.slice = (q.items.filter (q.passes K)).map q.slice ∨
    ∃ n it rest, D ∧ q.crc = true ∧ (∀ x ∈ q.items.take n, q.passes K x = false) ∧
      q.items.drop n = it :: rest ∧ q.passes K it = true ∧ it.sum K ≠ 0 ∧
      (q1.items.filter (q1.passes K)).map q1.slice = (rest.filter (q.passes K)).map q.slice := by
  rw [unreadQ_eq hl.crc]
  obtain ⟨n, h1, e | ⟨it, rest, j, hD, hc, e1, e2⟩⟩ := hl.items
  · left; rw [e, filter_drop_bad h1]
  · have hfirm := (hf.drop n).items it (by rw [show (q.drop n).items = it :: rest from e1]; simp)
    have hp : ∀ x : Item, q.passes K x = decide (x.sum K = x.stored) := by
      intro x; simp [PQ.passes, hc]
    by_cases hit' : it.sum K = zp j it.stored
    · left
      have h3 := hfirm j hit'
      rw [filter_drop_bad h1, e1, e2]
      have p1 : q.passes K { it with stored := zp j it.stored } = true := by
        rw [hp]; exact decide_eq_true hit'
      have p2 : q.passes K it = true := by rw [hp]; exact decide_eq_true h3
      rw [List.filter_cons_of_pos p1, List.filter_cons_of_pos p2]
      rfl
    · have p1 : ¬ q.passes K { it with stored := zp j it.stored } = true := by
        rw [hp]; exact fun e => hit' (of_decide_eq_true e)
      cases p2 : q.passes K it with
      | false =>
        left
        rw [filter_drop_bad h1, e1, e2, List.filter_cons_of_neg p1, List.filter_cons_of_neg (by simp [p2])]
      | true =>
        right
        refine ⟨n, it, rest, hD, hc, h1, e1, p2, fun h0 => hit' ?_, ?_⟩
        · rw [hp] at p2
          have p2 := of_decide_eq_true p2
          rw [← p2, h0, zp_zero]
        · rw [e2, List.filter_cons_of_neg p1]

/-- A crash while the first acceptable record is handed out: after the call it cannot be read again
either. -/
theorem spoiled_unread {K : Crc} {q q' : PQ} {o : Out} {b : Bool} (hs : q.steps K (.startRead b) q' o)
    (hrd : q.reader = some (.plain false)) (hc : q.crc = true)
    {n : Nat} {it : Item} {rest : List Item} (h1 : ∀ x ∈ q.items.take n, q.passes K x = false)
    (h2 : q.items.drop n = it :: rest) (h3 : q.passes K it = true) (h4 : it.sum K ≠ 0) :
    (q'.items.filter (q'.passes K)).map q'.slice = (rest.filter (q.passes K)).map q.slice := by
  rcases hs with hs | ⟨hu, _⟩
  · obtain ⟨r, _, hs⟩ := hs
    unfold PQ.startRead at hs
    rw [hrd] at hs
    simp only at hs
    have hsplit : q.items = q.items.take n ++ it :: rest := by rw [← h2, List.take_append_drop]
    have hfind : q.items.find? (q.passes K) = some it := by
      rw [hsplit, List.find?_append, List.find?_eq_none.2 (fun x hx => by simp [h1 x hx])]
      simp [h3]
    have hnl : (q.items.take n).length = n := by
      have := congrArg List.length h2
      simp only [List.length_drop, List.length_cons] at this
      simp only [List.length_take]; omega
    have hbad : q.bad K = n := by
      unfold PQ.bad
      rw [hsplit, List.takeWhile_append_of_pos (fun x hx => by simp [h1 x hx])]
      simp only [List.takeWhile_cons, h3, Bool.not_true]
      simpa using hnl
    rw [hfind] at hs
    obtain ⟨rfl, _⟩ := hs
    rw [hbad]
    have e : (q.drop n).spoil = { q.drop n with items := { it with stored := 0 } :: rest } := by
      have h2' : (q.drop n).items = it :: rest := h2
      unfold PQ.spoil
      rw [if_pos (show (q.drop n).crc = true from hc)]
      simp only [h2']
    rw [e]
    have hx := unreadQ_eq (K := K) (q := q) (q1 := { q.drop n with
      items := { it with stored := 0 } :: rest, reader := some (.plain true) }) rfl
    refine hx.trans ?_
    rw [List.filter_cons_of_neg]
    simp only [PQ.passes, hc, Bool.not_true, Bool.false_or, decide_eq_true_eq]
    exact h4
  · cases hu

/-! ### C07 -/

/-- C07.  After any history of calls and crashes, let the process die after any number of the stores of a
call.  The next process reports data loss, or reads what a consumer could have read before the call, or
what it could have read after the call.  The only exception: an interrupted reservation that overwrites,
with record checksums, may already have taken the oldest record. -/
theorem C07_crash (K : Crc) (len : Nat) (hlen : len < 2 ^ 32) (crc overwrite blockOnRead : Bool)
    (es : List Event) (ht : ∀ e ∈ es, e.op.tame = true)
    (hd : Distinct K len crc overwrite blockOnRead (NV.new K len crc overwrite blockOnRead) es)
    (op : NOp) (hop : op.tame = true) (k : Nat) :
    let s := nvLife K len crc overwrite blockOnRead es
    NoCollide K (s.stores K op) s.file →
    ∀ s1, (s.crash K op k).reopen K = some s1 →
      s1.unread K = s.unread K ∨ s1.unread K = (s.step K op).1.unread K ∨
      (s.core.overwrite = true ∧ s.crc = true ∧ op.reserves = true ∧ ∃ x, s.unread K = x :: s1.unread K) := by
  intro s nc s1 h1
  obtain ⟨q, h⟩ := alive_life hlen es (Alive.new K len crc overwrite blockOnRead hlen) ht hd
  have h : Alive K s q := h
  rcases h.crash op hop nc k with e | ⟨s2, q1, e, hs2, hq⟩
  · rw [h1] at e; cases e
  · rw [h1] at e
    injection e with e
    subst e
    have hu : s1.unread K = (q1.items.filter (q1.passes K)).map q1.slice :=
      (unread_nv hs2.sim).trans (unreadQ_eq rfl)
    rw [hu, unread_nv h.sim]
    rcases hq with ⟨o, _, hsim, _⟩ | hl
    · right; left
      rw [unread_nv hsim]
    · rcases left_unread h.firm hl with e | ⟨n, it, rest, hD, hc, g1, g2, g3, g4, g5⟩
      · exact Or.inl e
      · right
        have hcons : (q.items.filter (q.passes K)).map q.slice =
            q.slice it :: (rest.filter (q.passes K)).map q.slice := by
          rw [filter_drop_bad g1, g2, List.filter_cons_of_pos g3, List.map_cons]
        have hres : q.overwrite = true → op.reserves = true →
            (s.core.overwrite = true ∧ s.crc = true ∧ op.reserves = true ∧
            ∃ x, (q.items.filter (q.passes K)).map q.slice = x :: (q1.items.filter (q1.passes K)).map q1.slice) :=
          fun ho hr => ⟨by rw [h.sim.core.ow]; exact ho, by rw [h.sim.crc]; exact hc, hr, q.slice it, by
            rw [g5]; exact hcons⟩
        cases op with
        | reserve a b => exact Or.inr (hres hD rfl)
        | resume => exact Or.inr (hres hD rfl)
        | startRead b =>
          left
          obtain ⟨q', o, hq', hst, _⟩ := h.call (.startRead b) hop
          rw [unread_nv hq'.sim, g5]
          exact (spoiled_unread hst hD hc g1 g2 g3 g4).symm
        | _ => exact absurd hD (fun e => e)

/-- C07.  Data loss is reported only if the process died inside a call, after the first and before the
last of its stores. -/
theorem C07_between_calls (K : Crc) (len : Nat) (hlen : len < 2 ^ 32) (crc overwrite blockOnRead : Bool)
    (es : List Event) (ht : ∀ e ∈ es, e.op.tame = true)
    (hd : Distinct K len crc overwrite blockOnRead (NV.new K len crc overwrite blockOnRead) es)
    (op : NOp) (hop : op.tame = true) (k : Nat) :
    let s := nvLife K len crc overwrite blockOnRead es
    (s.crash K op k).reopen K = none → 0 < k ∧ k < (s.stores K op).length := by
  intro s hn
  obtain ⟨q, h⟩ := alive_life hlen es (Alive.new K len crc overwrite blockOnRead hlen) ht hd
  have h : Alive K s q := h
  refine ⟨?_, ?_⟩
  · rcases Nat.eq_zero_or_pos k with rfl | hk
    · obtain ⟨s1, e, _⟩ := opens_of h.sim (.refl s)
      have : (s.crash K op 0).reopen K = some s1 := e
      rw [hn] at this; cases this
    · exact hk
  · rcases Nat.lt_or_ge k (s.stores K op).length with hk | hk
    · exact hk
    · obtain ⟨q', o, hq', _, _⟩ := h.call op hop
      obtain ⟨s1, e, _⟩ := opens_of hq'.sim (sameCfg_step h.sim hq'.sim)
      have : (s.crash K op k).reopen K = some s1 := by
        unfold NV.crash
        rw [List.take_of_length_le hk, stores_step h.sim h.plain op]
        exact e
      rw [hn] at this; cases this

/-- C07 with cursor consumers, which never overwrite: after any calm history (see `NTrace.calm`), whatever
consumer reads, a crash in the middle of a call is reported as data loss, or it leaves what could be read
before the call or after it. -/
theorem C07_crash_cursor (K : Crc) (len : Nat) (hlen : len < 2 ^ 32) (crc blockOnRead : Bool)
    (ops : List NOp) (op : NOp) (hop : ∀ a b, op ≠ .alter a b) (k : Nat)
    (hz : NoZero K (NV.new K len crc false blockOnRead) (ops ++ [op]))
    (hc : (nvHistory K len crc false blockOnRead (ops ++ [op])).calm = true)
    (hc0 : (nvHistory K len crc false blockOnRead ops).calm = true)
    (hz0 : NoZero K (NV.new K len crc false blockOnRead) ops) :
    let s := nvAfter K len crc false blockOnRead ops
    NoCollide K (s.stores K op) s.file →
    ∀ s1, (s.crash K op k).reopen K = some s1 →
      s1.unread K = s.unread K ∨ s1.unread K = (s.step K op).1.unread K := by
  intro s nc s1 h1
  have hf0 : Firm K (PQ.new crc false) :=
    ⟨(fun it h => by cases h), (fun it h => by cases h), (fun p h => by cases h)⟩
  obtain ⟨q, h, ho, _, hf⟩ := nv_inv' (Firm K) (fun h1 h2 h3 h4 => h1.step h2 h3 h4) ops
    (NVSim.new K len crc false blockOnRead hlen) (NOk.init K crc) hf0 hz0 hc0
  have h : NVSim K s q := h
  obtain ⟨q2, h2, _⟩ := nv_inv (ops ++ [op]) (NVSim.new K len crc false blockOnRead hlen) (NOk.init K crc) hz hc
  rw [nv_run_append] at h2
  have h2 : NVSim K (s.step K op).1 q2 := h2
  rcases crash_found h op hop nc k with e | e | ⟨q1, ⟨s2, e1, e2⟩, e3⟩
  · rw [show (s.crash K op k).reopen K = none from e] at h1; cases h1
  · right
    obtain ⟨s2, g1, g2⟩ := opens_of h2 (sameCfg_step h h2)
    have : (s.crash K op k).reopen K = some s2 := by unfold NV.crash; rw [e]; exact g1
    rw [h1] at this
    cases this
    rw [unread_nv h2]
    exact (unread_nv g2).trans (unreadQ_eq rfl)
  · rw [show (s.crash K op k).reopen K = some s2 from e1] at h1
    cases h1
    have hu : s1.unread K = (q1.items.filter (q1.passes K)).map q1.slice :=
      (unread_nv e2).trans (unreadQ_eq rfl)
    rw [hu, unread_nv h]
    rcases left_unread hf e3 with e | ⟨n, it, rest, hD, hcq, g1, g2, g3, g4, g5⟩
    · exact Or.inl e
    · right
      cases op with
      | reserve a b => exact absurd hD (by simp [Damages, ho.ow])
      | resume => exact absurd hD (by simp [Damages, ho.ow])
      | startRead b =>
        have hD : q.reader = some (.plain false) := hD
        obtain ⟨q', hs, hs2⟩ := h.step (.startRead b)
        obtain ⟨_, a2, _⟩ := tame_step hs rfl (by rw [hD]; simp) ho.nb
        rw [unread_nv (hs2 a2), g5]
        exact (spoiled_unread hs hD hcq g1 g2 g3 g4).symm
      | _ => exact absurd hD (fun e => e)

/-! ### A reservation in flight is never delivered -/

theorem filter_drop_suffix {α : Type} (p : α → Bool) (l : List α) (n : Nat) :
    (l.drop n).filter p <:+ l.filter p := (List.drop_suffix n l).filter p

/-- With record checksums, no call but `commit` makes a record readable. -/
theorem call_unread {K : Crc} {q q' : PQ} {op : NOp} {o : Out} (hs : q.steps K op q' o)
    (ht : op.tame = true) (hr : ∀ n, q.reader ≠ some (.cursor n)) (hcm : op ≠ .commit) (hc : q.crc = true) :
    (q'.items.filter (q'.passes K)).map q'.slice <:+ (q.items.filter (q.passes K)).map q.slice := by
  have of : ∀ (q' : PQ) (n : Nat), q'.crc = q.crc → q'.items = q.items.drop n →
      (q'.items.filter (q'.passes K)).map q'.slice <:+ (q.items.filter (q.passes K)).map q.slice := by
    intro q' n e1 e2
    rw [unreadQ_eq e1, e2]
    exact (filter_drop_suffix _ _ n).map _
  have same : ∀ q' : PQ, q'.crc = q.crc → q'.items = q.items →
      (q'.items.filter (q'.passes K)).map q'.slice <:+ (q.items.filter (q.passes K)).map q.slice :=
    fun q' e1 e2 => of q' 0 e1 (by rw [e2]; rfl)
  have resv : ∀ (r : Res Range), q.reserve q' r →
      (q'.items.filter (q'.passes K)).map q'.slice <:+ (q.items.filter (q.passes K)).map q.slice := by
    intro r hs
    rcases hs with ⟨rfl, _⟩ | ⟨_, n, start, size, data, _, _, rfl, _⟩
    · exact same _ rfl rfl
    · exact of _ n rfl rfl
  rcases hs with hs | ⟨_, rfl, _⟩
  · unfold PQ.allows at hs
    cases op with
    | registerProducer =>
      simp only at hs
      split at hs <;> (obtain ⟨rfl, _⟩ := hs; exact same _ rfl rfl)
    | registerConsumer =>
      simp only at hs
      split at hs <;> (obtain ⟨rfl, _⟩ := hs; exact same _ rfl rfl)
    | registerCursor => cases ht
    | alter _ _ => cases ht
    | commit => exact absurd rfl hcm
    | reserve _ _ => obtain ⟨r, _, hs⟩ := hs; exact resv r hs
    | resume => obtain ⟨r, _, hs⟩ := hs; exact resv r hs
    | write off bs =>
      obtain ⟨rfl, _⟩ := hs
      unfold PQ.write
      split
      · split <;> exact same _ rfl rfl
      · exact same _ rfl rfl
    | startRead b =>
      obtain ⟨r, _, hs⟩ := hs
      unfold PQ.startRead at hs
      split at hs
      · split at hs
        · rename_i it hf
          obtain ⟨rfl, _⟩ := hs
          obtain ⟨hpass, as, bs, hi, has⟩ := List.find?_eq_some_iff_append.1 hf
          have hbad : q.bad K = as.length := by
            unfold PQ.bad
            rw [hi, List.takeWhile_append_of_pos (fun x hx => has x hx)]
            simp [hpass]
          have hdi : (q.drop (q.bad K)).items = it :: bs := by
            show q.items.drop _ = _
            rw [hi, hbad, List.drop_left]
          have e : ({ (q.drop (q.bad K)).spoil with reader := some (.plain true) } : PQ).items =
              { it with stored := 0 } :: bs := by
            show (PQ.spoil _).items = _
            unfold PQ.spoil
            rw [if_pos (show (q.drop (q.bad K)).crc = true from hc)]
            simp only [hdi]
          have e2 : ({ (q.drop (q.bad K)).spoil with reader := some (.plain true) } : PQ).crc = q.crc := by
            show (PQ.spoil _).crc = _
            unfold PQ.spoil
            split <;> rfl
          rw [unreadQ_eq e2, e]
          have hq : (q.items.filter (q.passes K)).map q.slice =
              q.slice it :: (bs.filter (q.passes K)).map q.slice := by
            rw [hi, List.filter_append, List.filter_eq_nil_iff.2 (fun x hx => by simpa using has x hx),
              List.nil_append, List.filter_cons_of_pos hpass, List.map_cons]
          rw [hq]
          cases hz : q.passes K { it with stored := 0 } with
          | true => rw [List.filter_cons_of_pos hz, List.map_cons]; exact List.suffix_rfl
          | false =>
            rw [List.filter_cons_of_neg (by rw [hz]; simp)]
            exact List.suffix_cons _ _
        · obtain ⟨rfl, _⟩ := hs; exact of _ _ rfl rfl
      · obtain ⟨rfl, _⟩ := hs; exact same _ rfl rfl
      · obtain ⟨rfl, _⟩ := hs; exact same _ rfl rfl
    | finishRead =>
      obtain ⟨r, _, hs⟩ := hs
      unfold PQ.finishRead at hs
      split at hs
      · obtain ⟨rfl, _⟩ := hs; exact of _ 1 rfl rfl
      · obtain ⟨rfl, _⟩ := hs; exact same _ rfl rfl
      · obtain ⟨rfl, _⟩ := hs; exact same _ rfl rfl
    | cursorRead b =>
      obtain ⟨r, _, hs⟩ := hs
      unfold PQ.cursorRead at hs
      split at hs
      · rename_i n e; exact absurd e (hr n)
      · obtain ⟨rfl, _⟩ := hs; exact same _ rfl rfl
    | ack =>
      obtain ⟨r, _, hs⟩ := hs
      unfold PQ.ack at hs
      split at hs
      · rename_i n e; exact absurd e (hr (n + 1))
      · obtain ⟨rfl, _⟩ := hs; exact same _ rfl rfl
    | restart => obtain ⟨rfl, _⟩ := hs; exact same _ rfl rfl
    | _ => obtain ⟨rfl, _⟩ := hs; exact same _ rfl rfl
  · exact same _ rfl rfl

/-- The checksum of a record with the given bytes is zero. -/
def ZeroSum (K : Crc) (x : Range × List UInt8) : Prop := K.sum (le32 x.1.size ++ x.2) = 0

/-- The bytes in the producer's reservation. -/
def NV.inFlight (s : NV) : Option (Range × List UInt8) :=
  match s.producer with
  | some (some r) => some (⟨r.start + s.core.xb, r.size - s.core.xb⟩,
      readMem s.core.mem (r.start + s.core.xb) (r.size - s.core.xb))
  | _ => none

theorem commit_unread {K : Crc} {q : PQ} (h : Firm K q) (hc : q.crc = true) {p : Item}
    (hp : q.producer = some (some p)) :
    ∃ zs : List (Range × List UInt8), (∀ z ∈ zs, ZeroSum K z) ∧
      ((q.commit K).1.items.filter ((q.commit K).1.passes K)).map (q.commit K).1.slice =
        (q.items.filter (q.passes K)).map q.slice ++ zs ++ [q.slice p] := by
  refine ⟨(q.holes.filter (q.passes K)).map q.slice, ?_, ?_⟩
  · intro z hz
    simp only [List.mem_map, List.mem_filter] at hz
    obtain ⟨it, ⟨h1, h2⟩, rfl⟩ := hz
    have h3 := h.holes it h1
    simp only [PQ.passes, hc, Bool.not_true, Bool.false_or, decide_eq_true_eq, h3] at h2
    exact h2
  · have e1 : (q.commit K).1.crc = q.crc := by unfold PQ.commit; rw [hp]
    have e2 : (q.commit K).1.items = q.items ++ q.holes ++ [{ p with stored := p.sum K }] := by
      unfold PQ.commit; rw [hp]; simp only [hc, if_true]
    rw [unreadQ_eq e1, e2, List.filter_append, List.filter_append, List.map_append, List.map_append]
    congr 1
    have : q.passes K { p with stored := p.sum K } = true := by
      simp only [PQ.passes, hc, Bool.not_true, Bool.false_or]
      exact decide_eq_true rfl
    rw [List.filter_cons_of_pos this]
    rfl

theorem inFlight_sim {K : Crc} {s : NV} {q : PQ} (h : NVSim K s q) :
    s.inFlight = match q.producer with | some (some p) => some (q.slice p) | _ => none := by
  have hp := h.producer
  unfold NV.inFlight
  cases hq : q.producer with
  | none => rw [hq] at hp; rw [hp]; rfl
  | some x =>
    cases x with
    | none => rw [hq] at hp; rw [hp]; rfl
    | some p =>
      rw [hq] at hp
      rw [hp]
      have hm := (h.core.mem p (by simp [PQ.live, PQ.pend, hq])).1
      have hx := h.core.xb
      simp only [Option.map_some, Item.range, hx, PQ.slice, Nat.add_sub_cancel, hm]

theorem event_crc (K : Crc) (len : Nat) (crc overwrite blockOnRead : Bool) (s : NV) (e : Event) (h : s.crc = crc) :
    (s.event K len crc overwrite blockOnRead e).crc = crc := by
  cases e with
  | call op => exact (congrArg Prod.fst (step_cfg K s op)).trans h
  | crash op k =>
    unfold NV.event
    simp only
    cases hr : (s.crash K op k).reopen K with
    | none => rfl
    | some s1 =>
      unfold NV.reopen at hr
      split at hr
      · cases hr
      · cases hr; exact h

theorem life_crc (K : Crc) (len : Nat) (crc overwrite blockOnRead : Bool) (es : List Event) :
    (nvLife K len crc overwrite blockOnRead es).crc = crc := by
  suffices ∀ s : NV, s.crc = crc → (es.foldl (NV.event K len crc overwrite blockOnRead) s).crc = crc from
    this _ rfl
  induction es with
  | nil => exact fun s h => h
  | cons e es ih => exact fun s h => ih _ (event_crc K len crc overwrite blockOnRead s e h)

/-- C07: a reservation in flight at a crash is never delivered as a record (with record checksums; without
them it may be, `C07_in_flight_violated`).  After any history of calls and crashes, only a commit makes
records readable, and it adds exactly the producer's record at the end - apart from abandoned
reservations whose contents happen to have the checksum zero. -/
theorem C07_in_flight (K : Crc) (len : Nat) (hlen : len < 2 ^ 32) (overwrite blockOnRead : Bool)
    (es : List Event) (ht : ∀ e ∈ es, e.op.tame = true)
    (hd : Distinct K len true overwrite blockOnRead (NV.new K len true overwrite blockOnRead) es)
    (op : NOp) (hop : op.tame = true) :
    let s := nvLife K len true overwrite blockOnRead es
    (s.step K op).1.unread K <:+ s.unread K ∨
    (op = .commit ∧ ∃ x zs, s.inFlight = some x ∧ (∀ z ∈ zs, ZeroSum K z) ∧
      (s.step K op).1.unread K = s.unread K ++ zs ++ [x]) := by
  intro s
  obtain ⟨q, h⟩ := alive_life hlen es (Alive.new K len true overwrite blockOnRead hlen) ht hd
  have h : Alive K s q := h
  have hc : q.crc = true := by rw [← h.sim.crc]; exact life_crc K len true overwrite blockOnRead es
  obtain ⟨q', o, h1, h2, _⟩ := h.call op hop
  rw [unread_nv h1.sim, unread_nv h.sim]
  by_cases hcm : op = .commit
  · subst hcm
    rcases h2 with ⟨rfl, _⟩ | ⟨_, rfl, _⟩
    · cases hp : q.producer with
      | none => left; unfold PQ.commit; rw [hp]; exact List.suffix_rfl
      | some x =>
        cases x with
        | none => left; unfold PQ.commit; rw [hp]; exact List.suffix_rfl
        | some p =>
          right
          obtain ⟨zs, e1, e2⟩ := commit_unread h.firm hc hp
          exact ⟨rfl, q.slice p, zs, by rw [inFlight_sim h.sim, hp], e1, e2⟩
    · left; exact List.suffix_rfl
  · exact Or.inl (call_unread h2 hop h.plain hcm hc)

/-! ### Examples and counterexamples -/

/-- Checksums without header collisions, to show that the hypotheses can be met. -/
def injCrc : Crc where
  sum l := (l.foldl (fun a b => a * 3 + b.toNat) 1) % 2 ^ 32
  sum_lt l := Nat.mod_lt _ (by decide)
  hdr a b c d := Nat.pair a (Nat.pair (b.elim 0 (· + 1)) (Nat.pair (c.elim 0 (· + 1)) (d.elim 0 (· + 1))))

theorem elim_inj {a b : Option Nat} (h : a.elim 0 (· + 1) = b.elim 0 (· + 1)) : a = b := by
  cases a <;> cases b <;> simp_all

theorem injCrc_noCollide (l : List Store) (f : File) : NoCollide injCrc l f := by
  intro i j h
  unfold File.sum injCrc at h
  simp only [Nat.pair_eq_pair] at h
  unfold File.fields
  rw [h.1, elim_inj h.2.1, elim_inj h.2.2.1, elim_inj h.2.2.2]

theorem injCrc_distinct (len : Nat) (crc overwrite blockOnRead : Bool) (es : List Event) :
    ∀ s, Distinct injCrc len crc overwrite blockOnRead s es := by
  induction es with
  | nil => exact fun _ => trivial
  | cons e es ih =>
    intro s
    refine ⟨?_, ih _⟩
    cases e with
    | call op => trivial
    | crash op k => exact injCrc_noCollide _ _

def calls (ops : List NOp) : List Event := ops.map .call

/-- A history with two crashes: the second process loses a reservation in flight, the third one is
started after a crash in the middle of a commit, whose data loss empties the file. -/
example :
    let es := calls ([.registerProducer] ++ put [1, 2] ++ [.reserve 3 true]) ++ [.crash (.write 0 [7, 7, 7]) 2] ++
      calls ([.registerProducer] ++ put [3, 4])
    let s := nvLife injCrc 64 true false true es
    (∀ e ∈ es, e.op.tame = true) ∧ (s.unread injCrc).map (·.2) = [[1, 2], [3, 4]] ∧
    let s2 := nvLife injCrc 64 true false true (es ++ calls [.reserve 1 true, .write 0 [5]])
    (s2.crash injCrc .commit 0).reopen injCrc ≠ none ∧
    (s2.stores injCrc .commit).length = 6 ∧
    (s2.crash injCrc .commit 3).reopen injCrc = none ∧
    (((s2.crash injCrc .commit 6).reopen injCrc).map fun s => (s.unread injCrc).map (·.2)) =
      some [[1, 2], [3, 4], [5]] := by decide +kernel

/-- The exception of `C07_crash` happens: the overwriting reservation died after it zeroed the checksum of
the oldest record.  What is read afterwards is neither what was there before the call nor what would have
been there after it (the call would have dropped two records). -/
theorem C07_exact_violated :
    let es := calls ([.registerProducer] ++ put [1, 2] ++ put [3, 4] ++ put [5, 6])
    let s := nvLife injCrc 36 true true true es
    let op : NOp := .reserve 9 true
    (s.unread injCrc).map (·.2) = [[1, 2], [3, 4], [5, 6]] ∧
    ((s.step injCrc op).1.unread injCrc).map (·.2) = [[5, 6]] ∧
    (((s.crash injCrc op 4).reopen injCrc).map fun s => (s.unread injCrc).map (·.2)) =
      some [[3, 4], [5, 6]] := by decide +kernel

/-- Without record checksums, the reservation that was in flight at the crash is delivered once a later
record is committed. -/
theorem C07_in_flight_violated :
    let es := calls ([.registerProducer] ++ put [1, 2] ++ [.reserve 3 true]) ++ [.crash (.write 0 [7, 7, 7]) 2] ++
      calls ([.registerProducer] ++ put [3, 4])
    ((nvLife injCrc 64 false false true es).unread injCrc).map (·.2) = [[1, 2], [7, 7, 0], [3, 4]] := by
  decide +kernel

/-- A crash between the stores of `start_read` and `finish_read` loses the record that was being read: the
checksum is zeroed when the record is handed out, as in `C05_midread_violated`. -/
example :
    let es := calls ([.registerProducer, .registerConsumer] ++ put [1, 2] ++ put [3, 4])
    let s := nvLife injCrc 64 true false true es
    (((s.crash injCrc (.startRead false) 0).reopen injCrc).map fun s => (s.unread injCrc).map (·.2)) =
      some [[1, 2], [3, 4]] ∧
    (((s.crash injCrc (.startRead false) 2).reopen injCrc).map fun s => (s.unread injCrc).map (·.2)) =
      some [[3, 4]] := by decide +kernel


/-- The hypotheses of `C07_crash_cursor` can be met by a history with a cursor consumer. -/
example :
    let ops := [.registerProducer, .registerCursor] ++ put [1, 2] ++ put [3, 4] ++ [.cursorRead false]
    (nvHistory injCrc 64 true false true (ops ++ [.ack])).calm = true ∧
    (nvHistory injCrc 64 true false true ops).calm = true ∧
    let s := nvAfter injCrc 64 true false true ops
    (s.crash injCrc .ack 1).reopen injCrc = none ∧
    (((s.crash injCrc .ack 2).reopen injCrc).map fun s => (s.unread injCrc).map (·.2)) = some [[3, 4]] := by
  decide +kernel

end Verif.Buffer
