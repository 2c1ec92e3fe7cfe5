import Verif.Buffer.NVStep

/-
Every call of the persistent ring buffer preserves the simulation, continued.  Helper lemmas only.
-/
namespace Verif.Buffer

theorem startRead_sim' {K : Crc} {s : NV} {q : PQ} (h : NVSim K s q) (block : Bool) :
    ∃ q', NVSim K (s.startRead K block).1 q' ∧ q.startRead K block q' (s.startRead K block).2 ∧
      q'.broken = q.broken ∧ (q.reader = some (.plain false) →
      (s.startRead K block).1.core.stats.recordsCorrupted =
        s.core.stats.recordsCorrupted + q.bad K) := by
  have hro := h.reader
  unfold readerOk at hro
  unfold PQ.startRead
  cases hrd : q.reader with
  | none =>
    rw [hrd] at hro
    have : s.startRead K block = (s, .err .failedPrecondition) := by simp [NV.startRead, hro]
    rw [this]; exact ⟨q, h, ⟨rfl, rfl⟩, rfl, fun e => by cases e⟩
  | some rd =>
    rw [hrd] at hro
    cases rd with
    | cursor n =>
      obtain ⟨_, _, _, hro⟩ := hro
      have : s.startRead K block = (s, .err .failedPrecondition) := by simp [NV.startRead, hro]
      rw [this]; exact ⟨q, h, ⟨rfl, rfl⟩, rfl, fun e => by cases e⟩
    | plain bb =>
      cases bb with
      | true =>
        obtain ⟨hne, hro⟩ := hro
        cases hi : q.items with
        | nil => exact absurd hi hne
        | cons it rest =>
          rw [hi] at hro
          simp only [List.head?_cons, Option.map_some] at hro
          have : s.startRead K block = (s, .err .invalidArgument) := by simp [NV.startRead, hro]
          rw [this]; exact ⟨q, h, ⟨rfl, rfl⟩, rfl, fun e => by cases e⟩
      | false =>
        have hl := plainLoop_sim block q.items s.core.advanceFuel s q h rfl hrd h.core.fuel
        have e : s.startRead K block =
            match s.plainLoop K block s.core.advanceFuel with
            | (s, .ok r) =>
              (s, .ok (⟨r.start + s.core.xb, r.size - s.core.xb⟩,
                readMem s.core.mem (r.start + s.core.xb) (r.size - s.core.xb)))
            | (s, .err e) => (s, .err e)
            | (s, .blocked) => (s, .blocked) := by
          unfold NV.startRead
          rw [show s.consumer = _ from hro]
          rfl
        rw [e]
        simp only
        cases hf : q.items.find? (q.passes K) with
        | none =>
          rw [hf] at hl
          obtain ⟨s', r, e1, e2, e3, e4⟩ := hl
          rw [e1]
          cases r with
          | ok a => simp [nothing] at e3
          | err c => exact ⟨_, e2, ⟨rfl, nothing_as e3⟩, rfl, fun _ => e4⟩
          | blocked => exact ⟨_, e2, ⟨rfl, nothing_as e3⟩, rfl, fun _ => e4⟩
        | some it =>
          rw [hf] at hl
          obtain ⟨s', e1, e2, e3, e4⟩ := hl
          rw [e1]
          have hx : s'.core.xb = q.hb := by
            have := e2.core.xb
            rw [this]
            show (PQ.spoil _).hb = _
            rw [PQ.spoil_hb]; rfl
          refine ⟨_, e2, ⟨rfl, ?_⟩, ?_, fun _ => e4⟩
          · simp only [PQ.slice, Item.range]
            rw [hx, Nat.add_sub_cancel, e3]
          · show (PQ.spoil _).broken = _
            unfold PQ.spoil; split <;> rfl

theorem startRead_sim {K : Crc} {s : NV} {q : PQ} (h : NVSim K s q) (block : Bool) :
    ∃ q', NVSim K (s.startRead K block).1 q' ∧ q.startRead K block q' (s.startRead K block).2 ∧
      q'.broken = q.broken := by
  obtain ⟨q', h1, h2, h3, _⟩ := startRead_sim' h block
  exact ⟨q', h1, h2, h3⟩

/-- The parked producer is not affected when the oldest item is finished. -/
theorem finish_sim {K : Crc} {s : NV} {q : PQ} (h : NVSim K s q) {it : Item} {rest : List Item}
    (hi : q.items = it :: rest) (busy : Bool) (cons : Option Cons) (rd : Option Reader)
    (hr : readerOk { q.drop 1 with reader := rd } cons) :
    NVSim K (({ s with core := (s.core.finishRead busy (it.range q.hb)).1, consumer := cons }).syncHdr K)
      { q.drop 1 with reader := rd } := by
  have hq := h.core.finish hi busy
  have hk := finishRead_keep s.core busy (it.range q.hb) (h.core.pop hi).inv.pend
  exact ⟨h.crc, ⟨hq.ow, hq.xb, hq.inv, hq.mem, hq.holes, hq.cpos⟩, h.producer, hr, rfl,
    parked_keep (s := s) h.parked hk.1 hk.2.1 hk.2.2.1 hk.2.2.2⟩

theorem finishRead_sim {K : Crc} {s : NV} {q : PQ} (h : NVSim K s q) :
    ∃ q', NVSim K (s.finishRead K).1 q' ∧ q.finishRead q' (s.finishRead K).2 ∧
      q'.broken = q.broken := by
  have hro := h.reader
  unfold readerOk at hro
  unfold PQ.finishRead
  cases hrd : q.reader with
  | none =>
    rw [hrd] at hro
    have : s.finishRead K = (s, .err .failedPrecondition) := by simp [NV.finishRead, hro]
    rw [this]; exact ⟨q, h, ⟨rfl, rfl⟩, rfl⟩
  | some rd =>
    rw [hrd] at hro
    cases rd with
    | cursor n =>
      obtain ⟨_, _, _, hro⟩ := hro
      have : s.finishRead K = (s, .err .failedPrecondition) := by simp [NV.finishRead, hro]
      rw [this]; exact ⟨q, h, ⟨rfl, rfl⟩, rfl⟩
    | plain bb =>
      cases bb with
      | false =>
        have : s.finishRead K = (s, .err .invalidArgument) := by simp [NV.finishRead, hro]
        rw [this]; exact ⟨q, h, ⟨rfl, rfl⟩, rfl⟩
      | true =>
        obtain ⟨hne, hro⟩ := hro
        cases hi : q.items with
        | nil => exact absurd hi hne
        | cons it rest =>
          rw [hi] at hro
          simp only [List.head?_cons, Option.map_some] at hro
          have e : s.finishRead K =
              (({ s with core := (s.core.finishRead s.hasWrite (it.range q.hb)).1,
                         consumer := some (.plain none) }).syncHdr K,
                .ok (s.core.finishRead s.hasWrite (it.range q.hb)).2) := by
            unfold NV.finishRead
            rw [hro]
          rw [e]
          exact ⟨_, finish_sim h hi s.hasWrite (some (.plain none)) (some (.plain false)) rfl,
            ⟨rfl, _, rfl⟩, rfl⟩

theorem take_drop_one (l : List Item) (n : Nat) : (l.drop 1).take n = (l.take (n + 1)).drop 1 := by
  cases l <;> simp

theorem ack_sim {K : Crc} {s : NV} {q : PQ} (h : NVSim K s q) :
    ∃ q', NVSim K (s.ack K).1 q' ∧ q.ack q' (s.ack K).2 ∧ q'.broken = q.broken := by
  have hro := h.reader
  unfold readerOk at hro
  unfold PQ.ack
  cases hrd : q.reader with
  | none =>
    rw [hrd] at hro
    have : s.ack K = (s, .err .failedPrecondition) := by simp [NV.ack, hro]
    rw [this]; exact ⟨q, h, ⟨rfl, rfl⟩, rfl⟩
  | some rd =>
    rw [hrd] at hro
    cases rd with
    | plain bb =>
      have : s.ack K = (s, .err .failedPrecondition) := by
        cases bb
        · simp [NV.ack, hro]
        · simp [NV.ack, hro.2]
      rw [this]; exact ⟨q, h, ⟨rfl, rfl⟩, rfl⟩
    | cursor n =>
      obtain ⟨h1, h2, h3, hro⟩ := hro
      cases n with
      | zero =>
        have : s.ack K = (s, .err .failedPrecondition) := by simp [NV.ack, hro]
        rw [this]; exact ⟨q, h, ⟨rfl, rfl⟩, rfl⟩
      | succ n =>
        cases hi : q.items with
        | nil => rw [hi] at h1; simp at h1
        | cons it rest =>
          rw [hi] at hro h1
          simp only [List.take_succ_cons, List.map_cons] at hro
          have e : ∃ busy, s.ack K =
              (({ s with core := (s.core.finishRead busy (it.range q.hb)).1,
                         consumer := some (.cursor ((rest.take n).map (Item.range q.hb))) }).syncHdr K,
                .ok (s.core.finishRead busy (it.range q.hb)).2) := by
            refine ⟨!((rest.take n).map (Item.range q.hb)).isEmpty || s.hasWrite, ?_⟩
            unfold NV.ack
            rw [hro]
          obtain ⟨busy, e⟩ := e
          rw [e]
          refine ⟨_, finish_sim h hi busy _ (some (.cursor n)) ?_, ⟨rfl, _, rfl⟩, rfl⟩
          simp only [readerOk, PQ.drop]
          refine ⟨by rw [hi]; simp at h1 ⊢; omega, by rw [h2]; simp, h3, ?_⟩
          rw [hi]
          rfl

theorem cursorLoop_succ (K : Crc) (s : NV) (rs : List Range) (block : Bool) (fuel : Nat) :
    s.cursorLoop K rs block (fuel + 1) =
    match s.core.startReadCursor (s.hasRead || s.hasWrite) block with
    | (c, .ok r) =>
      if s.crc ∧ c.recordCrc K r ≠ c.storedCrc r then
        NV.cursorLoop K { s with core := spoilStats c } rs block fuel
      else ({ s with core := c, consumer := some (.cursor (rs ++ [r])) }, .ok r)
    | (c, .err e) => (s.withCore K c, .err e)
    | (c, .blocked) => (s.withCore K c, .blocked) := rfl

theorem startReadCursor_none {c : Core} (busy block : Bool) (h1 : c.pendingReset = false)
    (h2 : c.ncrs = none) : ∃ rd r, c.startReadCursor busy block = ({ c with readable := rd }, r) ∧
      nothing block r := by
  have e : c.startReadCursor busy block = (if block then
      (if c.shutdown then (c, .err .aborted) else (c, .blocked))
      else ({ c with readable := false }, .err .unavailable)) := by
    simp [Core.startReadCursor, h1, h2]
  rw [e]
  cases block
  · exact ⟨false, _, rfl, rfl⟩
  · by_cases hs : c.shutdown = true
    · rw [if_pos rfl, if_pos hs]; exact ⟨c.readable, _, rfl, Or.inr rfl⟩
    · rw [if_pos rfl, if_neg hs]; exact ⟨c.readable, _, rfl, Or.inl rfl⟩

theorem cursorRead_sim {K : Crc} {s : NV} {q : PQ} (h : NVSim K s q) (block : Bool) :
    ∃ q', q.cursorRead K block q' (s.cursorRead K block).2 ∧
      (q'.broken = false → NVSim K (s.cursorRead K block).1 q') := by
  have hro := h.reader
  unfold readerOk at hro
  unfold PQ.cursorRead
  cases hrd : q.reader with
  | none =>
    rw [hrd] at hro
    have : s.cursorRead K block = (s, .err .failedPrecondition) := by simp [NV.cursorRead, hro]
    rw [this]; exact ⟨q, ⟨rfl, rfl⟩, fun _ => h⟩
  | some rd =>
    rw [hrd] at hro
    cases rd with
    | plain bb =>
      have : s.cursorRead K block = (s, .err .failedPrecondition) := by
        cases bb
        · simp [NV.cursorRead, hro]
        · simp [NV.cursorRead, hro.2]
      rw [this]; exact ⟨q, ⟨rfl, rfl⟩, fun _ => h⟩
    | cursor n =>
      obtain ⟨h1, h2, h3, hro⟩ := hro
      have e : s.cursorRead K block =
          match s.cursorLoop K ((q.items.take n).map (Item.range q.hb)) block s.core.advanceFuel with
          | (s, .ok r) =>
            (s, .ok (⟨r.start + s.core.xb, r.size - s.core.xb⟩,
              readMem s.core.mem (r.start + s.core.xb) (r.size - s.core.xb)))
          | (s, .err e) => (s, .err e)
          | (s, .blocked) => (s, .blocked) := by
        unfold NV.cursorRead
        rw [hro]
        rfl
      rw [e]
      obtain ⟨_, hnc⟩ := h.core.cpos n h2
      have hpend := h.core.inv.pend
      obtain ⟨fuel, hfu⟩ : ∃ k, s.core.advanceFuel = k + 1 := ⟨2 * s.core.len + 3, rfl⟩
      simp only
      cases hin : q.items[n]? with
      | none =>
        rw [hin] at hnc
        simp only [Option.map_none] at hnc
        obtain ⟨rdb, r, e1, e2⟩ := startReadCursor_none (s.hasRead || s.hasWrite) block hpend hnc
        have e3 : s.cursorLoop K ((q.items.take n).map (Item.range q.hb)) block s.core.advanceFuel =
            ({ s with core := { s.core with readable := rdb } }, r.as) := by
          rw [hfu, cursorLoop_succ, e1,
            ← withCore_same (K := K) (s := s) (c := { s.core with readable := rdb }) rfl]
          unfold nothing at e2
          split at e2
          · rcases e2 with rfl | rfl <;> rfl
          · subst e2; rfl
        rw [e3]
        have hs := h.frame s.core.stats s.core.drain rdb s.core.lockCount s.core.shutdown
        cases r with
        | ok a => simp [nothing] at e2
        | err c => exact ⟨q, ⟨rfl, nothing_as e2⟩, fun _ => hs⟩
        | blocked => exact ⟨q, ⟨rfl, nothing_as e2⟩, fun _ => hs⟩
      | some it =>
        rw [hin] at hnc
        simp only [Option.map_some] at hnc
        by_cases hp : q.passes K it = true
        · simp only [hp, if_true]
          have hlt : n < q.items.length := by
            rcases Nat.lt_or_ge n q.items.length with hlt | hge
            · exact hlt
            · rw [List.getElem?_eq_none hge] at hin; cases hin
          have hgi : q.items[n] = it := by
            rw [List.getElem?_eq_getElem hlt] at hin; simpa using hin
          have hsplit : q.items = q.items.take n ++ it :: q.items.drop (n + 1) := by
            rw [← hgi, List.getElem_cons_drop, List.take_append_drop]
          have hit : it ∈ q.items := by rw [← hgi]; exact List.getElem_mem hlt
          have hload : s.core.loadSize it.start = some it.size := by
            have := h.core.inv.loadSize (r := it.range q.hb)
              (List.mem_append_left _ (List.mem_map_of_mem hit))
            rw [h.core.xb] at this
            simpa [Item.range] using this
          have hrange : (⟨it.start, it.size + s.core.xb⟩ : Range) = it.range q.hb := by
            rw [h.core.xb]; rfl
          have hinv := h.core.inv
          rw [hsplit, List.map_append, List.map_cons] at hinv
          have hadv := hinv.advanceCursor (by simpa [Item.range] using hnc)
          have hsz : it.size + s.core.xb = (it.range q.hb).size := by rw [h.core.xb]; rfl
          have hstart : s.core.startReadCursor (s.hasRead || s.hasWrite) block =
              ({ s.core with ncrs := ((q.items.drop (n + 1)).map (Item.range q.hb)).head?.map (·.start) },
                .ok (it.range q.hb)) := by
            have e0 : s.core.startReadCursor (s.hasRead || s.hasWrite) block =
                (s.core.advanceCursor (it.size + s.core.xb), .ok ⟨it.start, it.size + s.core.xb⟩) := by
              simp [Core.startReadCursor, hpend, hnc, hload]
            rw [e0, hrange, hsz, hadv]
          let c1 : Core := { s.core with
            ncrs := ((q.items.drop (n + 1)).map (Item.range q.hb)).head?.map (·.start) }
          have hchk : ¬ (s.crc = true ∧ c1.recordCrc K (it.range q.hb) ≠ c1.storedCrc (it.range q.hb)) := by
            rintro ⟨e1, e2⟩
            exact e2 ((h.core.check hit (by rw [← h.crc]; exact e1)).2 hp)
          have e3 : s.cursorLoop K ((q.items.take n).map (Item.range q.hb)) block s.core.advanceFuel =
              ({ s with core := c1, consumer := some (.cursor
                ((q.items.take n).map (Item.range q.hb) ++ [it.range q.hb])) }, .ok (it.range q.hb)) := by
            rw [hfu, cursorLoop_succ, hstart]
            show (if s.crc = true ∧ c1.recordCrc K (it.range q.hb) ≠ c1.storedCrc (it.range q.hb) then _
              else _) = _
            rw [if_neg hchk]
          rw [e3]
          refine ⟨_, ⟨rfl, ?_⟩, fun _ => ?_⟩
          · show Res.ok (_, _) = _
            have hm := (h.core.mem it (PQ.items_live hit)).1
            have hx : c1.xb = q.hb := h.core.xb
            simp only [PQ.slice, Item.range]
            rw [hx, Nat.add_sub_cancel]
            show Res.ok (_, readMem s.core.mem _ _) = _
            rw [hm]
          · refine ⟨h.crc, ⟨h.core.ow, h.core.xb, h.core.inv.frame rfl rfl rfl rfl rfl rfl rfl rfl rfl,
              h.core.mem, h.core.holes, ?_⟩, h.producer, ?_, h.hdr, h.parked⟩
            · intro k hk
              simp only [Option.some.injEq] at hk
              subst hk
              refine ⟨hlt, ?_⟩
              show ((q.items.drop (n + 1)).map (Item.range q.hb)).head?.map (·.start) = _
              rw [List.head?_map, List.head?_drop]
              cases q.items[n + 1]? <;> rfl
            · refine ⟨hlt, rfl, h3, ?_⟩
              show some (Cons.cursor _) = some (Cons.cursor ((q.items.take (n + 1)).map (Item.range q.hb)))
              have : q.items.take (n + 1) = q.items.take n ++ [it] := by
                rw [List.take_add_one, hin]; rfl
              rw [this, List.map_append]
              rfl
        · simp only [hp]
          exact ⟨{ q with broken := true }, rfl, fun e => by cases e⟩


/-! ### Changes of the memory -/

/-- The same queue up to the bytes of its items. -/
structure SameShape (q q' : PQ) : Prop where
  crc : q'.crc = q.crc
  overwrite : q'.overwrite = q.overwrite
  items : q'.items.map (fun i => (i.start, i.size)) = q.items.map (fun i => (i.start, i.size))
  holes : q'.holes.map (fun i => (i.start, i.size)) = q.holes.map (fun i => (i.start, i.size))
  producer : q'.producer.map (fun p => p.map (fun i => (i.start, i.size))) =
    q.producer.map (fun p => p.map (fun i => (i.start, i.size)))
  reader : q'.reader = q.reader
  cpos : q'.cpos = q.cpos

theorem SameShape.hb {q q' : PQ} (h : SameShape q q') : q'.hb = q.hb := by
  simp [PQ.hb, h.crc]

theorem shape_range {l l' : List Item} (hb : Nat)
    (h : l'.map (fun i => (i.start, i.size)) = l.map (fun i => (i.start, i.size))) :
    l'.map (Item.range hb) = l.map (Item.range hb) := by
  have e : Item.range hb = (fun p : Nat × Nat => (⟨p.1, p.2 + hb⟩ : Range)) ∘
      (fun i : Item => (i.start, i.size)) := rfl
  rw [e, ← List.map_map, h, List.map_map]

theorem shape_start {l l' : List Item}
    (h : l'.map (fun i => (i.start, i.size)) = l.map (fun i => (i.start, i.size))) (k : Nat) :
    l'[k]?.map (·.start) = l[k]?.map (·.start) := by
  have := congrArg (fun x => x[k]?.map Prod.fst) h
  simpa [List.getElem?_map, Option.map_map, Function.comp_def] using this

theorem SameShape.pend {q q' : PQ} (h : SameShape q q') :
    q'.pend.map (fun i => (i.start, i.size)) = q.pend.map (fun i => (i.start, i.size)) := by
  have := h.producer
  unfold PQ.pend
  cases hq : q.producer with
  | none =>
    cases hq' : q'.producer with
    | none => rfl
    | some x => simp [hq, hq'] at this
  | some x =>
    cases hq' : q'.producer with
    | none => simp [hq, hq'] at this
    | some x' =>
      rw [hq, hq'] at this
      cases x <;> cases x' <;> simp at this ⊢
      exact this

theorem SameShape.live {q q' : PQ} (h : SameShape q q') :
    q'.live.map (fun i => (i.start, i.size)) = q.live.map (fun i => (i.start, i.size)) := by
  simp only [PQ.live, List.map_append, h.items, h.holes, h.pend]

theorem SameShape.readerOk {q q' : PQ} (h : SameShape q q') {c : Option Cons} (hr : readerOk q c) :
    Buffer.readerOk q' c := by
  have hlen : q'.items.length = q.items.length := by simpa using congrArg List.length h.items
  have hr' := hr
  unfold Buffer.readerOk at hr ⊢
  rw [h.reader, h.hb]
  cases hrd : q.reader with
  | none => rw [hrd] at hr; exact hr
  | some rd =>
    rw [hrd] at hr
    cases rd with
    | plain b =>
      cases b with
      | false => exact hr
      | true =>
        refine ⟨?_, ?_⟩
        · intro e
          rw [e] at hlen
          exact hr.1 (List.length_eq_zero_iff.1 hlen.symm)
        · rw [hr.2, ← List.head?_map, ← List.head?_map, shape_range _ h.items]
    | cursor n =>
      refine ⟨by rw [hlen]; exact hr.1, by rw [h.cpos]; exact hr.2.1,
        by rw [h.overwrite]; exact hr.2.2.1, ?_⟩
      rw [hr.2.2.2, List.map_take, List.map_take, shape_range _ h.items]

/-- The memory changes and the items follow. -/
theorem NVSim.mutate {K : Crc} {s : NV} {q q' : PQ} (h : NVSim K s q) (hs : SameShape q q') (m : Mem)
    (hsz : ∀ it ∈ q.live, ∀ i, i < 4 →
      m (it.start + (q.hb - 4) + i) = s.core.mem (it.start + (q.hb - 4) + i))
    (hm : ∀ it ∈ q'.live, ItemMem m q.hb q.crc it) :
    NVSim K { s with core := { s.core with mem := m } } q' := by
  refine ⟨by rw [hs.crc]; exact h.crc, ⟨by rw [hs.overwrite]; exact h.core.ow,
    by rw [hs.hb]; exact h.core.xb, ?_, ?_, ?_, ?_⟩, ?_, hs.readerOk h.reader, h.hdr, h.parked⟩
  · rw [hs.hb, shape_range _ hs.items, List.map_append, shape_range _ hs.holes,
      shape_range _ hs.pend, ← List.map_append]
    refine h.core.inv.memCongr (m := m) ?_
    intro r hr i hi
    rw [← PQ.live_map] at hr
    obtain ⟨it, hit, rfl⟩ := List.mem_map.1 hr
    rw [h.core.xb]
    exact hsz it hit i hi
  · intro it hit
    rw [hs.hb, hs.crc]
    exact hm it hit
  · intro e
    have h1 := hs.items
    rw [e] at h1
    have h2 := h.core.holes (by simpa using h1.symm)
    have h3 := hs.holes
    rw [h2] at h3
    simpa using h3
  · intro k hk
    rw [hs.cpos] at hk
    obtain ⟨h1, h2⟩ := h.core.cpos k hk
    have hlen : q'.items.length = q.items.length := by simpa using congrArg List.length hs.items
    exact ⟨by omega, h2.trans (shape_start hs.items k).symm⟩
  · show s.producer = _
    rw [h.producer, hs.hb]
    have := hs.producer
    have e : Item.range q.hb = (fun p : Nat × Nat => (⟨p.1, p.2 + q.hb⟩ : Range)) ∘
      (fun i : Item => (i.start, i.size)) := rfl
    have key : ∀ x : Option (Option Item), x.map (fun p => p.map (Item.range q.hb)) =
        (x.map fun p => p.map (fun i : Item => (i.start, i.size))).map
          (fun p => p.map (fun p : Nat × Nat => (⟨p.1, p.2 + q.hb⟩ : Range))) := by
      intro x; cases x with
      | none => rfl
      | some y => cases y <;> rfl
    rw [key, key, this]

theorem readMem_take (m : Mem) (a : Nat) {k n : Nat} (h : k ≤ n) :
    (readMem m a n).take k = readMem m a k := by
  obtain ⟨d, rfl⟩ := Nat.exists_eq_add_of_le h
  rw [readMem_append, List.take_append_of_le_length (by rw [readMem_length]; exact Nat.le_refl _),
    List.take_of_length_le (by rw [readMem_length]; exact Nat.le_refl _)]

theorem readMem_drop (m : Mem) (a : Nat) {k n : Nat} (h : k ≤ n) :
    (readMem m a n).drop k = readMem m (a + k) (n - k) := by
  obtain ⟨d, rfl⟩ := Nat.exists_eq_add_of_le h
  rw [readMem_append, List.drop_append, List.drop_of_length_le (by rw [readMem_length]; exact Nat.le_refl _),
    readMem_length, Nat.sub_self, List.drop_zero, List.nil_append, Nat.add_sub_cancel_left]

theorem write_sim {K : Crc} {s : NV} {q : PQ} (h : NVSim K s q) (off : Nat) (bytes : List UInt8) :
    NVSim K (s.write off bytes).1 (q.write off bytes).1 ∧ (s.write off bytes).2 = (q.write off bytes).2 ∧
      (q.write off bytes).1.broken = q.broken := by
  have hp := h.producer
  cases hq : q.producer with
  | none =>
    rw [hq, Option.map_none] at hp
    simp only [NV.write, hp, PQ.write, hq]
    exact ⟨h, trivial, trivial⟩
  | some x =>
    rw [hq] at hp
    cases x with
    | none =>
      rw [Option.map_some, Option.map_none] at hp
      simp only [NV.write, hp, PQ.write, hq]
      exact ⟨h, trivial, trivial⟩
    | some p =>
      simp only [Option.map_some] at hp
      have hx := h.core.xb
      have eS : s.write off bytes = if off + bytes.length ≤ (p.range q.hb).size - s.core.xb then
          ({ s with core := { s.core with
              mem := writeMem s.core.mem ((p.range q.hb).start + s.core.xb + off) bytes } }, .ok ())
          else (s, .err .invalidArgument) := by
        unfold NV.write
        split
        · rename_i r hr
          rw [hp] at hr
          cases hr
          rfl
        · rename_i hr
          exact absurd hp (hr _)
      have eQ : q.write off bytes = if off + bytes.length ≤ p.size then
          ({ q with producer := some (some (p.store off bytes)) }, .ok ())
          else (q, .err .invalidArgument) := by
        unfold PQ.write
        rw [hq]
      rw [eS, eQ]
      have e1 : (p.range q.hb).size - s.core.xb = p.size := by simp [Item.range, hx]
      rw [e1]
      by_cases hb : off + bytes.length ≤ p.size
      · rw [if_pos hb, if_pos hb]
        refine ⟨?_, rfl, rfl⟩
        have hpl : q.pend = [p] := by simp [PQ.pend, hq]
        have hl : q.live = (q.items ++ q.holes) ++ [p] := by simp [PQ.live, hpl]
        have hpm : p ∈ q.live := by rw [hl]; simp
        have hm := h.core.mem p hpm
        have hmem : ∀ i, (i < p.start + q.hb + off ∨ p.start + q.hb + off + bytes.length ≤ i) →
            writeMem s.core.mem ((p.range q.hb).start + s.core.xb + off) bytes i = s.core.mem i := by
          intro i hi
          rw [hx]
          exact writeMem_out _ _ _ _ hi
        have h4 := q.hb_ge
        refine NVSim.mutate (q' := { q with producer := some (some (p.store off bytes)) }) h
          ⟨rfl, rfl, rfl, rfl, ?_, rfl, rfl⟩ _ ?_ ?_
        · simp [hq, Item.store]
        · intro it hit i hi
          apply hmem
          rw [hl] at hit
          rcases List.mem_append.1 hit with hit | hit
          · have := h.core.apart' hl hit (List.mem_singleton.2 rfl)
            omega
          · rw [List.mem_singleton.1 hit]
            omega
        · intro it hit
          have hit : it ∈ (q.items ++ q.holes) ++ [p.store off bytes] := by
            simpa [PQ.live, PQ.pend] using hit
          rcases List.mem_append.1 hit with hit | hit
          · have hd := h.core.apart' hl hit (List.mem_singleton.2 rfl)
            refine (h.core.mem it (by rw [hl]; exact List.mem_append_left _ hit)).congr
              (fun i h1 h2 => (hmem i ?_).symm) (fun _ i h1 h2 => (hmem i ?_).symm)
            · omega
            · omega
          · rw [List.mem_singleton.1 hit]
            refine ⟨?_, fun hc => ?_⟩
            · show readMem _ (p.start + q.hb) p.size = _
              have hsplit : p.size = off + (bytes.length + (p.size - (off + bytes.length))) := by omega
              rw [hsplit, readMem_append, readMem_append]
              simp only [Item.store, List.append_assoc]
              rw [← hm.1, readMem_take _ _ (by omega), readMem_drop _ _ (by omega)]
              congr 1
              · apply readMem_congr
                intro i hi
                apply hmem; omega
              · congr 1
                · rw [hx]
                  exact readMem_writeMem_same _ _ _
                · rw [Nat.add_assoc _ off]
                  apply readMem_congr
                  intro i hi
                  apply hmem; omega
            · have hq8 := PQ.hb_crc hc
              show ofLe32 (readMem _ p.start 4) = p.stored
              rw [← hm.2 hc]
              congr 1
              apply readMem_congr
              intro i hi
              apply hmem; omega
      · rw [if_neg hb, if_neg hb]
        exact ⟨h, rfl, rfl⟩

/-! ### Commit -/

theorem QInv.commit {c : Core} {q : PQ} {p : Item} (h : QInv c q) (hq : q.producer = some (some p)) :
    QInv (c.advanceCommitted (p.range q.hb))
      { q with
        items := q.items ++ q.holes ++ [p], holes := [], producer := some none
        cpos := q.cpos.bind fun k => if k < q.items.length ∨ q.holes = [] then some k else none } := by
  have hpl : q.pend = [p] := by simp [PQ.pend, hq]
  have hinv := h.inv
  rw [hpl, List.map_append, List.map_singleton] at hinv
  have hc := hinv.commitLast (fun e => by
    have := h.holes (by simpa using e)
    simp [this])
  refine ⟨h.ow, h.xb, ?_, ?_, fun e => by simp at e, ?_⟩
  · show CoreInv _ ((q.items ++ q.holes ++ [p]).map (Item.range q.hb)) (([] ++ []).map _)
    rw [List.map_append, List.map_append]
    exact hc
  · intro it hit
    refine h.mem it ?_
    simpa [PQ.live, PQ.pend, hq] using hit
  · intro k hk
    simp only at hk ⊢
    cases hcp : q.cpos with
    | none => simp [hcp] at hk
    | some k' =>
      simp only [hcp, Option.bind_some] at hk
      split at hk
      · rename_i hk2
        simp only [Option.some.injEq] at hk
        subst hk
        obtain ⟨h1, h2⟩ := h.cpos k' hcp
        refine ⟨by simp only [List.length_append]; omega, ?_⟩
        simp only [Core.advanceCommitted]
        rw [h2]
        by_cases hlt : k' < q.items.length
        · rw [List.append_assoc, List.getElem?_append_left hlt, List.getElem?_eq_getElem hlt]
          rfl
        · have hh : q.holes = [] := hk2.resolve_left hlt
          have hk3 : k' = q.items.length := by omega
          rw [hh, List.append_nil, hk3, List.getElem?_concat_length, List.getElem?_eq_none (Nat.le_refl _)]
          rfl
      · cases hk

theorem commit_plain {K : Crc} {s : NV} {q : PQ} {p : Item} (h : NVSim K s q)
    (hq : q.producer = some (some p)) (rdb : Bool) :
    let q' : PQ := { q with
        items := q.items ++ q.holes ++ [p], holes := [], producer := some none
        cpos := q.cpos.bind fun k => if k < q.items.length ∨ q.holes = [] then some k else none
        broken := q.broken || (match q.reader with
          | some (.cursor n) => decide (n = q.items.length) && !q.holes.isEmpty
          | _ => false) }
    q'.broken = false →
    NVSim K (({ s with
      core := { s.core.advanceCommitted (p.range q.hb) with readable := rdb },
      producer := some none }).syncHdr K) q' := by
  intro q' hb
  have hp := h.producer
  rw [hq] at hp
  have hQ := h.core.commit hq
  have hQ : QInv (s.core.advanceCommitted (p.range q.hb)) q' :=
    ⟨hQ.ow, hQ.xb, hQ.inv, hQ.mem, hQ.holes, hQ.cpos⟩
  refine ⟨h.crc, hQ.frame _ _ rdb _ _, rfl, ?_, rfl, ?_⟩
  · have hr := h.reader
    unfold readerOk at hr ⊢
    have hrq : q'.reader = q.reader := rfl
    rw [hrq]
    cases hrd : q.reader with
    | none => rw [hrd] at hr; exact hr
    | some rd =>
      rw [hrd] at hr
      cases rd with
      | plain b =>
        cases b with
        | false => exact hr
        | true =>
          refine ⟨by simp [q'], ?_⟩
          show s.consumer = some (.plain (((q.items ++ q.holes ++ [p]).head?).map (Item.range q.hb)))
          rw [hr.2]
          cases hi : q.items with
          | nil => exact absurd hi hr.1
          | cons a l => rfl
      | cursor n =>
        obtain ⟨h1, h2, h3, h4⟩ := hr
        refine ⟨by show n ≤ (q.items ++ q.holes ++ [p]).length; simp only [List.length_append]; omega,
          ?_, h3, ?_⟩
        · show (q.cpos.bind _) = some n
          rw [h2, Option.bind_some]
          have hb : (q.broken || (decide (n = q.items.length) && !q.holes.isEmpty)) = false := by
            have : q'.broken = (q.broken || (decide (n = q.items.length) && !q.holes.isEmpty)) := by
              simp only [q', hrd]
            rw [← this]; exact hb
          rw [if_pos]
          rcases Nat.lt_or_ge n q.items.length with hlt | hge
          · exact Or.inl hlt
          · have : n = q.items.length := by omega
            simp [this] at hb
            exact Or.inr hb.2
        · show s.consumer = some (.cursor (((q.items ++ q.holes ++ [p]).take n).map (Item.range q.hb)))
          rw [h4, List.append_assoc, List.take_append_of_le_length h1]
  · intro pk hpk
    have := (h.parked pk hpk).1
    rw [hp] at this
    simp at this

theorem advanceCommitted_mem (c : Core) (r : Range) (m : Mem) :
    ({ c with mem := m } : Core).advanceCommitted r = { c.advanceCommitted r with mem := m } := by
  unfold Core.advanceCommitted; rfl

theorem commit_sim {K : Crc} {s : NV} {q : PQ} (h : NVSim K s q) :
    (s.commit K).2 = (q.commit K).2 ∧
      ((q.commit K).1.broken = false → NVSim K (s.commit K).1 (q.commit K).1) := by
  have hp := h.producer
  cases hq : q.producer with
  | none =>
    rw [hq, Option.map_none] at hp
    simp only [NV.commit, hp, PQ.commit, hq]
    exact ⟨trivial, fun _ => h⟩
  | some x =>
    rw [hq, Option.map_some] at hp
    cases x with
    | none =>
      rw [Option.map_none] at hp
      simp only [NV.commit, hp, PQ.commit, hq]
      exact ⟨trivial, fun _ => h⟩
    | some p =>
      rw [Option.map_some] at hp
      have hpl : q.pend = [p] := by simp [PQ.pend, hq]
      have hl : q.live = (q.items ++ q.holes) ++ [p] := by simp [PQ.live, hpl]
      have hpm : p ∈ q.live := by rw [hl]; simp
      let m : Mem := if s.crc then
        writeMem s.core.mem p.start (le32 (s.core.recordCrc K (p.range q.hb))) else s.core.mem
      let p' : Item := if q.crc then { p with stored := p.sum K } else p
      have hp's : p'.start = p.start := by simp only [p']; split <;> rfl
      have hp'z : p'.size = p.size := by simp only [p']; split <;> rfl
      have hp'd : p'.data = p.data := by simp only [p']; split <;> rfl
      have hp'r : p'.range q.hb = p.range q.hb := by simp only [Item.range, hp's, hp'z]
      have hm : ∀ i, (q.crc = true → i < p.start ∨ p.start + 4 ≤ i) → m i = s.core.mem i := by
        intro i hi
        simp only [m, h.crc]
        split
        · rename_i hc
          exact writeMem_out _ _ _ _ (by simpa [le32] using hi hc)
        · rfl
      have h1 : NVSim K { s with core := { s.core with mem := m } }
          { q with producer := some (some p') } := by
        refine NVSim.mutate (q' := { q with producer := some (some p') }) h
          ⟨rfl, rfl, rfl, rfl, by simp [hq, hp's, hp'z], rfl, rfl⟩ m ?_ ?_
        · intro it hit i hi
          apply hm
          intro hc
          have h8 := PQ.hb_crc hc
          rw [hl] at hit
          rcases List.mem_append.1 hit with hit | hit
          · have := h.core.apart' hl hit (List.mem_singleton.2 rfl)
            omega
          · rw [List.mem_singleton.1 hit]; omega
        · intro it hit
          have hit : it ∈ (q.items ++ q.holes) ++ [p'] := by
            simpa [PQ.live, PQ.pend] using hit
          rcases List.mem_append.1 hit with hit | hit
          · have hd := h.core.apart' hl hit (List.mem_singleton.2 rfl)
            refine (h.core.mem it (by rw [hl]; exact List.mem_append_left _ hit)).congr
              (fun i h1 h2 => (hm i ?_).symm) (fun hc i h1 h2 => (hm i ?_).symm)
            · intro hc; have := PQ.hb_crc hc; omega
            · intro hc; have := PQ.hb_crc hc; omega
          · rw [List.mem_singleton.1 hit]
            have hmp := h.core.mem p hpm
            refine ⟨?_, fun hc => ?_⟩
            · rw [hp's, hp'z, hp'd, ← hmp.1]
              apply readMem_congr
              intro i hi
              apply hm
              intro hc; have := PQ.hb_crc hc; omega
            · have h8 := PQ.hb_crc hc
              have hst : p'.stored = p.sum K := by simp [p', hc]
              have hmm : m = writeMem s.core.mem p.start (le32 (s.core.recordCrc K (p.range q.hb))) := by
                simp [m, h.crc, hc]
              rw [hp's, hst, hmm]
              have e4 : readMem (writeMem s.core.mem p.start (le32 (s.core.recordCrc K (p.range q.hb))))
                  p.start 4 = le32 (s.core.recordCrc K (p.range q.hb)) :=
                readMem_writeMem_same _ _ (le32 (s.core.recordCrc K (p.range q.hb)))
              rw [e4, ofLe32_le32 _ (by unfold Core.recordCrc; exact K.sum_lt _)]
              have hd := h.core.hdrOk hpm
              rw [hc] at hmp
              rw [h8] at hmp hd ⊢
              exact ItemMem.sum hmp (by rw [h.core.xb, h8]) hd
      have h2 := commit_plain h1 (p := p') rfl true
      have eQ : q.commit K = ({ q with
          items := q.items ++ q.holes ++ [p']
          holes := []
          producer := some none
          cpos := q.cpos.bind fun k =>
            if k < q.items.length ∨ q.holes = [] then some k else none
          broken := q.broken || (match q.reader with
            | some (.cursor n) => decide (n = q.items.length) && !q.holes.isEmpty
            | _ => false) }, .ok ()) := by
        unfold PQ.commit
        rw [hq]
        rfl
      have eS : s.commit K = (({ s with
          core := { ({ s.core with mem := m } : Core).advanceCommitted (p'.range q.hb) with
            readable := true }
          producer := some none }).syncHdr K, .ok ()) := by
        have hpr : (({ s.core.advanceCommitted (p.range q.hb) with
            readable := true } : Core).writeCrc K s.crc (p.range q.hb)).maybeReset s.hasRead =
            { ({ s.core with mem := m } : Core).advanceCommitted (p.range q.hb) with
              readable := true } := by
          have e1 : (({ s.core.advanceCommitted (p.range q.hb) with
              readable := true } : Core).writeCrc K s.crc (p.range q.hb)) =
              { ({ s.core with mem := m } : Core).advanceCommitted (p.range q.hb) with
                readable := true } := by
            unfold Core.writeCrc
            simp only [m]
            split
            · rfl
            · rfl
          rw [e1]
          exact maybeReset_id h.core.inv.pend
        unfold NV.commit
        split
        · rename_i r hr
          rw [hp] at hr
          cases hr
          simp only
          rw [hpr, hp'r]
        · rename_i hr
          rw [hp] at hr; cases hr
        · rename_i hr
          rw [hp] at hr; cases hr
      rw [eQ, eS]
      exact ⟨rfl, h2⟩

/-! ### Alterations, drops and restarts -/

theorem readMem_poke_in (m : Mem) (addr : Nat) (b : UInt8) (a n : Nat) (h1 : a ≤ addr)
    (_ : addr < a + n) : readMem (writeMem m addr [b]) a n = (readMem m a n).set (addr - a) b := by
  apply List.ext_getElem?
  intro i
  by_cases hi : i < n
  · rw [readMem_getElem? _ _ _ _ hi]
    by_cases he : addr - a = i
    · rw [List.getElem?_set, if_pos he, if_pos (by rw [readMem_length]; omega)]
      have : a + i = addr := by omega
      rw [this]
      simp [writeMem]
    · rw [List.getElem?_set, if_neg he, readMem_getElem? _ _ _ _ hi]
      rw [writeMem_out _ _ _ _ (by simp; omega)]
  · rw [List.getElem?_eq_none (by rw [readMem_length]; omega),
      List.getElem?_eq_none (by rw [List.length_set, readMem_length]; omega)]

theorem readMem_poke_out (m : Mem) (addr : Nat) (b : UInt8) (a n : Nat)
    (h : addr < a ∨ a + n ≤ addr) : readMem (writeMem m addr [b]) a n = readMem m a n := by
  apply readMem_congr
  intro i hi
  exact writeMem_out _ _ _ _ (by simp; omega)

theorem poke_start (hb : Nat) (crc : Bool) (addr : Nat) (b : UInt8) (it : Item) :
    (it.poke hb crc addr b).start = it.start ∧ (it.poke hb crc addr b).size = it.size := by
  unfold Item.poke; (repeat' split) <;> exact ⟨rfl, rfl⟩

theorem ItemMem.poke {m : Mem} {hb : Nat} {crc : Bool} {it : Item} (h : ItemMem m hb crc it)
    (hhb : hb = if crc then 8 else 4) (addr : Nat) (b : UInt8) :
    ItemMem (writeMem m addr [b]) hb crc (it.poke hb crc addr b) := by
  unfold Item.poke
  split
  · rename_i hin
    refine ⟨?_, fun hc => ?_⟩
    · show readMem _ (it.start + hb) it.size = it.data.set _ b
      rw [readMem_poke_in _ _ _ _ _ hin.1 hin.2, h.1]
    · show ofLe32 (readMem _ it.start 4) = it.stored
      rw [hc] at hhb
      simp only [if_true] at hhb
      rw [readMem_poke_out _ _ _ _ _ (by omega), h.2 hc]
  · rename_i hout
    split
    · rename_i hin
      obtain ⟨hc, hin⟩ := hin
      rw [hc] at hhb
      simp only [if_true] at hhb
      refine ⟨?_, fun hc => ?_⟩
      · show readMem _ (it.start + hb) it.size = it.data
        rw [readMem_poke_out _ _ _ _ _ (by omega), h.1]
      · show ofLe32 (readMem _ it.start 4) = ofLe32 _
        rw [readMem_poke_in _ _ _ _ _ hin.1 hin.2, ← h.2 hc, le32_ofLe32 _ (readMem_length _ _ _)]
    · rename_i hout2
      refine ⟨?_, fun hc => ?_⟩
      · rw [readMem_poke_out _ _ _ _ _ (by omega), h.1]
      · rw [readMem_poke_out _ _ _ _ _ (by simp only [hc, true_and] at hout2; omega), h.2 hc]

theorem PQ.alter_live (q : PQ) (addr : Nat) (b : UInt8) :
    (q.alter addr b).live = q.live.map (Item.poke q.hb q.crc addr b) := by
  have hp : (q.alter addr b).pend = q.pend.map (Item.poke q.hb q.crc addr b) := by
    unfold PQ.pend PQ.alter
    cases q.producer with
    | none => rfl
    | some x => cases x <;> rfl
  simp only [PQ.live, hp, List.map_append]
  rfl

theorem alter_sim {K : Crc} {s : NV} {q : PQ} (h : NVSim K s q) (addr : Nat) (b : UInt8)
    (hb : (q.alter addr b).broken = false) :
    NVSim K { s with core := { s.core with mem := writeMem s.core.mem addr [b] } }
      (q.alter addr b) := by
  have hshape : ∀ l : List Item, (l.map (Item.poke q.hb q.crc addr b)).map
      (fun i => (i.start, i.size)) = l.map (fun i => (i.start, i.size)) := by
    intro l
    rw [List.map_map]
    apply List.map_congr_left
    intro it _
    simp [poke_start]
  have hnb : ∀ it ∈ q.live, ¬ (it.start + (q.hb - 4) ≤ addr ∧ addr < it.start + q.hb) := by
    intro it hit hh
    have : q.live.any (Item.sizeAt q.hb addr) = true :=
      List.any_eq_true.2 ⟨it, hit, by simp [Item.sizeAt, hh.1, hh.2]⟩
    simp [PQ.alter, this] at hb
  refine NVSim.mutate (q' := q.alter addr b) h ⟨rfl, rfl, hshape _, hshape _, ?_, rfl, rfl⟩ _ ?_ ?_
  · show (q.producer.map _).map _ = _
    cases q.producer with
    | none => rfl
    | some x =>
      cases x with
      | none => rfl
      | some p => simp [poke_start]
  · intro it hit i hi
    have := hnb it hit
    have := q.hb_ge
    exact writeMem_out _ _ _ _ (by simp; omega)
  · intro it hit
    rw [PQ.alter_live] at hit
    obtain ⟨it0, h0, rfl⟩ := List.mem_map.1 hit
    exact (h.core.mem it0 h0).poke rfl addr b

theorem QInv.abandon {c : Core} {q : PQ} (h : QInv c q) : QInv c q.abandon := by
  have hpe : q.abandon.pend = [] := rfl
  refine ⟨h.ow, h.xb, ?_, ?_, ?_, h.cpos⟩
  · rw [hpe, List.append_nil]
    show CoreInv c (q.items.map (Item.range q.hb)) ((holesAfter q.items (q.holes ++ q.pend)).map _)
    have hinv := h.inv
    cases hi : q.items with
    | nil =>
      rw [holesAfter_nil]
      rw [hi] at hinv
      exact CoreInv.forget (H := (q.holes ++ q.pend).map (Item.range q.hb)) (P := [])
        (by rw [List.append_nil]; exact hinv)
    | cons a l => rw [holesAfter_cons, ← hi]; exact hinv
  · intro it hit
    refine h.mem it ?_
    simp only [PQ.live, hpe, List.append_nil, List.mem_append] at hit ⊢
    rcases hit with hit | hit
    · exact Or.inl (Or.inl hit)
    · simp only [PQ.abandon, holesAfter] at hit
      split at hit
      · cases hit
      · rcases List.mem_append.1 hit with hit | hit
        · exact Or.inl (Or.inr hit)
        · exact Or.inr hit
  · intro e
    have : q.items = [] := e
    show holesAfter q.items _ = []
    rw [this]; rfl

theorem dropProducer_sim {K : Crc} {s : NV} {q : PQ} (h : NVSim K s q) (hp : s.parked = none) :
    NVSim K { s with producer := none } q.abandon :=
  ⟨h.crc, h.core.abandon, rfl, h.reader, h.hdr, fun p e => by rw [hp] at e; cases e⟩

theorem restart_sim {K : Crc} {s : NV} {q : PQ} (h : NVSim K s q) :
    ∃ s', s.reopen K = some s' ∧
      NVSim K s' { q.abandon with reader := none, cpos := some 0 } := by
  refine ⟨{ s with
    core := { s.core with ncrs := s.core.nrs, drain := none, pendingReset := false, lockCount := 0,
                          shutdown := false, readable := true }
    producer := none, parked := none, consumer := none }, ?_, ?_⟩
  · unfold NV.reopen
    rw [if_neg]
    rw [h.hdr]
    exact fun e => e rfl
  · have ha := h.core.abandon
    refine ⟨h.crc, ⟨ha.ow, ha.xb, ?_, ha.mem, ha.holes, ?_⟩, rfl, rfl, h.hdr, fun p e => by cases e⟩
    · exact ha.inv.frame rfl rfl rfl rfl rfl rfl rfl h.core.inv.pend.symm rfl
    · intro k hk
      simp only [Option.some.injEq] at hk
      subst hk
      refine ⟨Nat.zero_le _, ?_⟩
      show s.core.nrs = _
      rw [h.core.inv.nrs]
      show _ = q.items[0]?.map _
      cases q.items <;> rfl

/-! ### All together -/

theorem NVSim.step' {K : Crc} {s : NV} {q : PQ} (h : NVSim K s q) (op : NOp)
    (hpk : op.usesProducer = true → s.parked = none) :
    ∃ q', q.allows K op q' (s.step' K op).2 ∧ (q'.broken = false → NVSim K (s.step' K op).1 q') := by
  cases op with
  | registerProducer =>
    have hp := h.producer
    cases hq : q.producer with
    | none =>
      rw [hq, Option.map_none] at hp
      have e : s.step' K .registerProducer = ({ s with producer := some none }, .unit (.ok ())) := by
        simp only [NV.step']; split
        · rename_i x hx; rw [hp] at hx; cases hx
        · rfl
      rw [e]
      refine ⟨{ q with producer := some none }, by simp [PQ.allows, hq], fun _ => ?_⟩
      have hpend : q.pend = [] := by simp [PQ.pend, hq]
      refine ⟨h.crc, ⟨h.core.ow, h.core.xb, ?_, ?_, h.core.holes, h.core.cpos⟩, rfl, h.reader, h.hdr, ?_⟩
      · have := h.core.inv
        rw [hpend] at this
        exact this
      · intro it hit
        refine h.core.mem it ?_
        simpa [PQ.live, PQ.pend, hq] using hit
      · intro p hpp
        exact ⟨rfl, (h.parked p hpp).2⟩
    | some x =>
      rw [hq, Option.map_some] at hp
      have e : s.step' K .registerProducer = (s, .unit (.err .failedPrecondition)) := by
        simp only [NV.step']; split
        · rfl
        · rename_i hx; rw [hp] at hx; cases hx
      rw [e]
      exact ⟨q, by simp [PQ.allows, hq], fun _ => h⟩
  | dropProducer => exact ⟨q.abandon, ⟨rfl, rfl⟩, fun _ => dropProducer_sim h (hpk rfl)⟩
  | reserve size block =>
    obtain ⟨q', h1, h2, _⟩ := reserve_sim h size block
    exact ⟨q', ⟨_, rfl, h2⟩, fun _ => h1⟩
  | resume =>
    obtain ⟨q', h1, h2, _⟩ := resume_sim h
    exact ⟨q', ⟨_, rfl, h2⟩, fun _ => h1⟩
  | write off bytes =>
    obtain ⟨h1, h2, _⟩ := write_sim h off bytes
    exact ⟨_, ⟨rfl, congrArg Out.unit h2⟩, fun _ => h1⟩
  | commit =>
    obtain ⟨h1, h2⟩ := commit_sim h
    exact ⟨_, ⟨rfl, congrArg Out.unit h1⟩, h2⟩
  | registerConsumer =>
    have hr := h.reader
    unfold readerOk at hr
    cases hrd : q.reader with
    | none =>
      rw [hrd] at hr
      have e : s.step' K .registerConsumer = ({ s with consumer := some (.plain none) }, .unit (.ok ())) := by
        simp only [NV.step']; split
        · rename_i x hx; rw [show s.consumer = none from hr] at hx; cases hx
        · rfl
      rw [e]
      exact ⟨{ q with reader := some (.plain false) }, by simp [PQ.allows, hrd],
        fun _ => ⟨h.crc, ⟨h.core.ow, h.core.xb, h.core.inv, h.core.mem, h.core.holes, h.core.cpos⟩,
          h.producer, rfl, h.hdr, h.parked⟩⟩
    | some rd =>
      rw [hrd] at hr
      have hc : ∃ x, s.consumer = some x := by
        cases rd with
        | plain b =>
          cases b with
          | false => exact ⟨_, hr⟩
          | true => exact ⟨_, hr.2⟩
        | cursor n => exact ⟨_, hr.2.2.2⟩
      obtain ⟨x, hc⟩ := hc
      have e : s.step' K .registerConsumer = (s, .unit (.err .failedPrecondition)) := by
        simp only [NV.step']; split
        · rfl
        · rename_i hx; rw [hc] at hx; cases hx
      rw [e]
      exact ⟨q, by simp [PQ.allows, hrd], fun _ => h⟩
  | registerCursor =>
    have hr := h.reader
    unfold readerOk at hr
    cases hrd : q.reader with
    | none =>
      rw [hrd] at hr
      have e : s.step' K .registerCursor = if s.core.overwrite then (s, .unit (.err .failedPrecondition))
          else ({ s with consumer := some (.cursor []) }, .unit (.ok ())) := by
        simp only [NV.step']; split
        · rename_i x hx; rw [show s.consumer = none from hr] at hx; cases hx
        · rfl
      rw [e, h.core.ow]
      by_cases ho : q.overwrite = true
      · rw [if_pos ho]
        exact ⟨q, by simp [PQ.allows, hrd, ho], fun _ => h⟩
      · rw [if_neg ho]
        have ho' : q.overwrite = false := by simpa using ho
        by_cases hc : q.cpos = some 0
        · exact ⟨{ q with reader := some (.cursor 0) }, by simp [PQ.allows, hrd, ho', hc],
            fun _ => ⟨h.crc, ⟨h.core.ow, h.core.xb, h.core.inv, h.core.mem, h.core.holes, h.core.cpos⟩,
              h.producer, ⟨Nat.zero_le _, hc, ho', rfl⟩, h.hdr, h.parked⟩⟩
        · exact ⟨{ q with broken := true }, by simp [PQ.allows, hrd, ho', hc], fun e => by cases e⟩
    | some rd =>
      rw [hrd] at hr
      have hc : ∃ x, s.consumer = some x := by
        cases rd with
        | plain b =>
          cases b with
          | false => exact ⟨_, hr⟩
          | true => exact ⟨_, hr.2⟩
        | cursor n => exact ⟨_, hr.2.2.2⟩
      obtain ⟨x, hc⟩ := hc
      have e : s.step' K .registerCursor = (s, .unit (.err .failedPrecondition)) := by
        simp only [NV.step']; split
        · rfl
        · rename_i hx; rw [hc] at hx; cases hx
      rw [e]
      exact ⟨q, by simp [PQ.allows, hrd], fun _ => h⟩
  | dropConsumer =>
    exact ⟨{ q with reader := none }, ⟨rfl, rfl⟩,
      fun _ => ⟨h.crc, ⟨h.core.ow, h.core.xb, h.core.inv, h.core.mem, h.core.holes, h.core.cpos⟩,
        h.producer, rfl, h.hdr, h.parked⟩⟩
  | startRead b =>
    obtain ⟨q', h1, h2, _⟩ := startRead_sim h b
    exact ⟨q', ⟨_, rfl, h2⟩, fun _ => h1⟩
  | finishRead =>
    obtain ⟨q', h1, h2, _⟩ := finishRead_sim h
    exact ⟨q', ⟨_, rfl, h2⟩, fun _ => h1⟩
  | cursorRead b =>
    obtain ⟨q', h1, h2⟩ := cursorRead_sim h b
    exact ⟨q', ⟨_, rfl, h1⟩, h2⟩
  | ack =>
    obtain ⟨q', h1, h2, _⟩ := ack_sim h
    exact ⟨q', ⟨_, rfl, h2⟩, fun _ => h1⟩
  | waitForDrain =>
    refine ⟨q, ⟨rfl, _, rfl⟩, fun _ => ?_⟩
    have : ∃ d, (s.core.waitForDrain s.hasRead).1 = { s.core with drain := d } := by
      unfold Core.waitForDrain
      (repeat' split) <;> exact ⟨_, rfl⟩
    obtain ⟨d, e⟩ := this
    show NVSim K { s with core := (s.core.waitForDrain s.hasRead).1 } q
    rw [e]
    exact h.frame s.core.stats d s.core.readable s.core.lockCount s.core.shutdown
  | lock =>
    exact ⟨q, ⟨rfl, rfl⟩, fun _ => h.frame s.core.stats s.core.drain s.core.readable _ s.core.shutdown⟩
  | unlock =>
    exact ⟨q, ⟨rfl, rfl⟩, fun _ => h.frame s.core.stats s.core.drain s.core.readable _ s.core.shutdown⟩
  | shutdown =>
    refine ⟨q, ⟨rfl, rfl⟩, fun _ => ?_⟩
    show NVSim K { s with core := s.core.doShutdown } q
    unfold Core.doShutdown
    split
    · exact h
    · exact h.frame s.core.stats s.core.drain s.core.readable (s.core.lockCount + 1) true
  | alter addr b => exact ⟨_, ⟨rfl, rfl⟩, fun hb' => alter_sim h addr b hb'⟩
  | restart =>
    obtain ⟨s', e, h'⟩ := restart_sim h
    refine ⟨{ q.abandon with reader := none, cpos := some 0 }, ?_, fun _ => ?_⟩
    · simp [PQ.allows, NV.step', e]
    · simp only [NV.step', e]
      exact h'

theorem NVSim.step {K : Crc} {s : NV} {q : PQ} (h : NVSim K s q) (op : NOp) :
    ∃ q', q.steps K op q' (s.step K op).2 ∧ (q'.broken = false → NVSim K (s.step K op).1 q') := by
  unfold NV.step
  by_cases hp : (s.parked.isSome && op.usesProducer) = true
  · rw [if_pos hp]
    simp only [Bool.and_eq_true] at hp
    exact ⟨q, Or.inr ⟨hp.2, rfl, rfl⟩, fun _ => h⟩
  · rw [if_neg hp]
    obtain ⟨q', h1, h2⟩ := h.step' op (by
      intro hu
      rw [hu, Bool.and_true] at hp
      simpa using hp)
    exact ⟨q', Or.inl h1, h2⟩

theorem NV.run_length (K : Crc) (s : NV) (ops : List NOp) : (s.run K ops).2.length = ops.length := by
  induction ops generalizing s with
  | nil => rfl
  | cons op ops ih => simp [NV.run, ih]

/-- Every history of the code is one of the specification. -/
theorem NVSim.run {K : Crc} (ops : List NOp) : ∀ {s : NV} {q : PQ}, NVSim K s q →
    ∃ q', PQ.Run K q ops q' (s.run K ops).2 ∧ (q'.broken = false → NVSim K (s.run K ops).1 q') := by
  induction ops with
  | nil => intro s q h; exact ⟨q, .nil q, fun _ => h⟩
  | cons op ops ih =>
    intro s q h
    obtain ⟨q1, h1, h2⟩ := h.step op
    cases hb1 : q1.broken with
    | true =>
      exact ⟨q1, .broke h1 hb1 hb1 (NV.run_length K _ ops), fun e => by rw [hb1] at e; cases e⟩
    | false =>
      obtain ⟨q2, h3, h4⟩ := ih (h2 hb1)
      exact ⟨q2, .cons h1 hb1 h3, h4⟩

end Verif.Buffer
