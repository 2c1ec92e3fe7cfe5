import Verif.Buffer.AggInv
import Verif.Buffer.Drain
import Mathlib.Data.Nat.Find

/-
Where every record written to the aggregate buffer is: on disk, refused by the disk buffer, overwritten in
memory, or still in memory.
-/
namespace Verif.Buffer

/-- The record with number `i` (in the order of reservation) was committed by its producer, and its bytes
are the record `d` committed to disk. -/
def Copied (a : Agg) (d : List (Option UInt8)) (i : Nat) : Prop :=
  ∃ g bs, a.seen.grants[i]? = some g ∧ g.committed = true ∧ stores g.data bs ∧ d = bs.map some

/-- Where the records are, by their number in the order of reservation: `disk` reached the disk (in this
order), `refused` were dropped by the flush thread because the disk buffer was being reset after data loss,
`lost` were overwritten in memory, `live` are in memory only. -/
structure Ledger (a : Agg) (disk refused lost live : List Nat) : Prop where
  order : disk.Pairwise (· < ·)
  copied : List.Forall₂ (Copied a) a.stored.committed disk
  drops : refused.length = a.dropped
  overwritten : lost.length = a.vol.core.stats.recordsOverwritten
  all : (disk ++ refused ++ lost ++ live).Perm (List.range a.seen.grants.length)
  oldest : ∀ i ∈ disk ++ refused ++ lost, ∀ j ∈ live, i < j

theorem select {α β γ : Type} {R : α → β → Prop} {f : α → γ} {D : List α} {I : List β}
    (h : List.Forall₂ R D I) : ∀ {C : List γ}, C.Sublist (D.map f) →
    ∃ I' S, I'.Sublist I ∧ (I' ++ S).Perm I ∧ List.Forall₂ (fun c i => ∃ x, R x i ∧ c = f x) C I' := by
  induction h with
  | nil =>
    intro C hC
    have : C = [] := by simpa using hC
    subst this
    exact ⟨[], [], List.Sublist.refl _, .nil, .nil⟩
  | @cons d i D I hr _ ih =>
    intro C hC
    rw [List.map_cons] at hC
    rcases List.sublist_cons_iff.1 hC with h1 | ⟨C', rfl, h1⟩
    · obtain ⟨I', S, a1, a2, a3⟩ := ih h1
      refine ⟨I', i :: S, a1.trans (List.sublist_cons_self _ _), ?_, a3⟩
      exact (List.perm_middle).trans (a2.cons i)
    · obtain ⟨I', S, a1, a2, a3⟩ := ih h1
      exact ⟨i :: I', S, a1.cons_cons i, a2.cons i, .cons ⟨d, hr, rfl⟩ a3⟩

theorem forall₂_of_getElem {α β : Type} {R : α → β → Prop} : ∀ {l : List α} {m : List β}, l.length = m.length →
    (∀ (k : Nat) (x : α) (y : β), l[k]? = some x → m[k]? = some y → R x y) → List.Forall₂ R l m := by
  intro l
  induction l with
  | nil =>
    intro m h _
    cases m with
    | nil => exact .nil
    | cons _ _ => simp at h
  | cons x l ih =>
    intro m h hr
    cases m with
    | nil => simp at h
    | cons y m =>
      exact .cons (hr 0 x y rfl rfl) (ih (by simpa using h) (fun k a b ha hb => hr (k + 1) a b ha hb))

/-- The ledger, from the invariants of the two halves. -/
theorem ledger_of {K : Crc} {len : Nat} {mem : Mem} {s0 : NV} {a : Agg} (h : AInv K len mem s0 a)
    {U O : List Slot} {ids lost : List Nat} {f : Fifo} (hs : Sim a.vol f U O)
    (ht : TInv a.seen f ids lost) :
    ∃ disk refused live, Ledger a disk refused lost live ∧ (∀ i ∈ live, ∃ s ∈ f.slots, s.id = i) := by
  have hforall : List.Forall₂ (fun bs i => ∃ g, a.seen.grants[i]? = some g ∧ g.committed = true ∧ stores g.data bs)
      a.seen.delivered ids :=
    forall₂_of_getElem ht.len.symm (fun k bs i h1 h2 => ht.del k i bs h2 h1)
  have hlost : lost.length = a.vol.core.stats.recordsOverwritten := by rw [hs.lostR, ht.lostN]
  have hsorted : (f.slots.map (·.id)).Pairwise (· < ·) := by rw [List.pairwise_map]; exact ht.sorted
  have hperm := ht.perm
  rw [ht.granted] at hperm
  -- the usual case: what is on disk has been read
  have plain : a.Mv [] → ∃ disk refused live, Ledger a disk refused lost live ∧
      (∀ i ∈ live, ∃ s ∈ f.slots, s.id = i) := by
    intro hm
    unfold Agg.Mv at hm
    rw [List.append_nil] at hm
    obtain ⟨disk, S, b1, b2, b3⟩ := select hforall hm.1
    refine ⟨disk, S, f.slots.map (·.id), ⟨ht.incr.sublist b1, ?_, ?_, hlost, ?_, ?_⟩, ?_⟩
    · refine List.Forall₂.imp ?_ b3
      rintro d i ⟨bs, ⟨g, g1, g2, g3⟩, rfl⟩
      exact ⟨g, bs, g1, g2, g3, rfl⟩
    · have e1 := b2.length_eq
      have e2 := b3.length_eq
      have e3 := hm.2
      rw [List.length_append] at e1
      rw [ht.len] at e1
      omega
    · exact (((b2.append_right lost).append_right _)).trans hperm
    · intro i hi j hj
      obtain ⟨s, hs, rfl⟩ := List.mem_map.1 hj
      rcases List.mem_append.1 hi with hi | hi
      · exact ht.before i (b2.subset hi) s hs
      · exact ht.lostBefore i hi s hs
    · intro i hi
      obtain ⟨s, hs, rfl⟩ := List.mem_map.1 hi
      exact ⟨s, hs, rfl⟩
  have hk := h.ok
  cases hst : a.stage with
  | finishing r =>
    rw [hst] at hk
    obtain ⟨bs, hb, _, hm⟩ := hk
    have hrd := ht.reading
    rw [hb.1] at hrd
    obtain ⟨_, s, hs1, _, hs2, hs3⟩ := hrd
    cases hsl : f.slots with
    | nil => rw [hsl] at hs1; cases hs1
    | cons s' rest =>
      obtain rfl : s' = s := by rw [hsl] at hs1; simpa using hs1
      have hsm : s' ∈ f.slots := by rw [hsl]; simp
      have hfa : List.Forall₂ (fun bs i => ∃ g, a.seen.grants[i]? = some g ∧ g.committed = true ∧ stores g.data bs)
          (a.seen.delivered ++ [bs]) (ids ++ [s'.id]) :=
        List.rel_append hforall (.cons ⟨s'.grant, ht.slots s' hsm, hs3, hs2⟩ .nil)
      obtain ⟨disk, S, b1, b2, b3⟩ := select hfa hm.1
      have hinc : (ids ++ [s'.id]).Pairwise (· < ·) := by
        rw [List.pairwise_append]
        refine ⟨ht.incr, by simp, ?_⟩
        intro i hi j hj
        simp at hj; subst hj
        exact ht.before i hi s' hsm
      rw [hsl] at hsorted
      have hso := List.pairwise_cons.1 hsorted
      refine ⟨disk, S, rest.map (·.id), ⟨hinc.sublist b1, ?_, ?_, hlost, ?_, ?_⟩, ?_⟩
      · refine List.Forall₂.imp ?_ b3
        rintro d i ⟨bs, ⟨g, g1, g2, g3⟩, rfl⟩
        exact ⟨g, bs, g1, g2, g3, rfl⟩
      · have e1 := b2.length_eq
        have e2 := b3.length_eq
        have e3 := hm.2
        rw [List.length_append, List.length_append] at e1
        rw [List.length_append] at e3
        rw [ht.len] at e1
        simp only [List.length_cons, List.length_nil] at e1 e3
        omega
      · refine (((b2.append_right lost).append_right _)).trans (List.Perm.trans ?_ hperm)
        rw [hsl, List.map_cons]
        simp only [List.append_assoc]
        refine List.Perm.append_left ids ?_
        show (s'.id :: (lost ++ rest.map (·.id))).Perm _
        exact (List.perm_middle).symm
      · intro i hi j hj
        have hj' : s'.id < j := hso.1 j hj
        obtain ⟨x, hx, rfl⟩ := List.mem_map.1 hj
        have hxm : x ∈ f.slots := by rw [hsl]; simp [hx]
        rcases List.mem_append.1 hi with hi | hi
        · rcases List.mem_append.1 (b2.subset hi) with hi | hi
          · exact ht.before i hi x hxm
          · simp at hi; subst hi; exact hj'
        · exact ht.lostBefore i hi x hxm
      · intro i hi
        obtain ⟨s, hs, rfl⟩ := List.mem_map.1 hi
        exact ⟨s, by simp [hs], rfl⟩
  | panicked => rw [hst] at hk; exact hk.elim
  | spawned => rw [hst] at hk; exact plain hk.2.2
  | registered => rw [hst] at hk; exact plain hk.2.2
  | loop => rw [hst] at hk; exact plain hk.2.2
  | «have» r => rw [hst] at hk; obtain ⟨_, _, _, hm⟩ := hk; exact plain hm
  | asleep r => rw [hst] at hk; obtain ⟨_, _, _, _, _, hm⟩ := hk; exact plain hm
  | filling r => rw [hst] at hk; obtain ⟨_, _, _, _, _, hm⟩ := hk; exact plain hm
  | filled r => rw [hst] at hk; obtain ⟨_, _, _, _, _, hm⟩ := hk; exact plain hm
  | leaving => rw [hst] at hk; exact plain hk.2
  | left => rw [hst] at hk; exact plain hk.2
  | dead => rw [hst] at hk; exact plain hk.2

theorem AInv.ledger {K : Crc} {len : Nat} {mem : Mem} {s0 : NV} {a : Agg} (h : AInv K len mem s0 a)
    (hlen : len < 2 ^ 32) : ∃ disk refused lost live, Ledger a disk refused lost live := by
  obtain ⟨U, O, ids, lost, hs, ht⟩ := run_inv len mem hlen (a.vlog.map (·.1))
  rw [← h.log.seen] at ht
  rw [h.log.vol] at hs
  obtain ⟨disk, refused, live, hl, _⟩ := ledger_of h hs ht
  exact ⟨disk, refused, lost, live, hl⟩

/-! ### The logs grow -/

theorem thread_grows (K : Crc) (a : Agg) :
    (∃ L, (a.thread K).vlog = a.vlog ++ L) ∧ ∃ L, (a.thread K).nlog = a.nlog ++ L := by
  have v : ∀ op s, (∃ L, ((a.onVol op).1.goto s).vlog = a.vlog ++ L) ∧
      ∃ L, ((a.onVol op).1.goto s).nlog = a.nlog ++ L :=
    fun op s => ⟨⟨_, rfl⟩, ⟨[], (List.append_nil _).symm⟩⟩
  have n : ∀ op s, (∃ L, ((a.onNV K op).1.goto s).vlog = a.vlog ++ L) ∧
      ∃ L, ((a.onNV K op).1.goto s).nlog = a.nlog ++ L :=
    fun op s => ⟨⟨[], (List.append_nil _).symm⟩, ⟨_, rfl⟩⟩
  have z : ∀ s, (∃ L, (a.goto s).vlog = a.vlog ++ L) ∧ ∃ L, (a.goto s).nlog = a.nlog ++ L :=
    fun s => ⟨⟨[], (List.append_nil _).symm⟩, ⟨[], (List.append_nil _).symm⟩⟩
  have fst : ∀ {x : Agg × Out} {b : Agg} {o : Out}, x = (b, o) → b = x.1 := by
    intro x b o e; rw [e]
  unfold Agg.thread
  split
  · split <;> (rename_i e; rw [fst e]; exact v _ _)
  · split <;> (rename_i e; rw [fst e]; exact n _ _)
  · split
    · exact z _
    · split
      · rename_i e; rw [fst e]; exact v _ _
      · rename_i e; rw [fst e]; exact v _ a.stage
      · rename_i e; rw [fst e]; exact v _ _
  · exact n _ _
  · exact n _ _
  · split <;> (rename_i e; rw [fst e]; exact n _ _)
  · split <;> (rename_i e; rw [fst e]; exact n _ _)
  · split <;> (rename_i e; rw [fst e]; exact v _ _)
  · exact n _ _
  · exact v _ _
  · exact z a.stage
  · exact z a.stage

theorem step_grows (K : Crc) (a : Agg) (op : AOp) :
    (∃ L, (a.step K op).vlog = a.vlog ++ L) ∧ ∃ L, (a.step K op).nlog = a.nlog ++ L := by
  have z : (∃ L, a.vlog = a.vlog ++ L) ∧ ∃ L, a.nlog = a.nlog ++ L :=
    ⟨⟨[], (List.append_nil _).symm⟩, ⟨[], (List.append_nil _).symm⟩⟩
  cases op with
  | vol op =>
    simp only [Agg.step]
    split
    · exact ⟨⟨_, rfl⟩, z.2⟩
    · exact z
  | nv op =>
    simp only [Agg.step]
    split
    · exact ⟨z.1, ⟨_, rfl⟩⟩
    · exact z
  | thread => exact thread_grows K a
  | stop => exact z

theorem run_grows (K : Crc) (ops : List AOp) : ∀ a : Agg,
    (∃ L, (a.run K ops).vlog = a.vlog ++ L) ∧ ∃ L, (a.run K ops).nlog = a.nlog ++ L := by
  induction ops with
  | nil => intro a; exact ⟨⟨[], (List.append_nil _).symm⟩, ⟨[], (List.append_nil _).symm⟩⟩
  | cons op ops ih =>
    intro a
    obtain ⟨⟨L1, h1⟩, ⟨L2, h2⟩⟩ := step_grows K a op
    obtain ⟨⟨L3, h3⟩, ⟨L4, h4⟩⟩ := ih (a.step K op)
    exact ⟨⟨L1 ++ L3, by rw [← List.append_assoc, ← h1]; exact h3⟩,
      ⟨L2 ++ L4, by rw [← List.append_assoc, ← h2]; exact h4⟩⟩

/-- `flush`, called in state `a`, has returned by state `a'`: it did not have to wait, or the flush thread
woke it. -/
def FlushReturned (a a' : Agg) : Prop :=
  (a.vol.step .waitForDrain).2 = .drain false ∨
  ∃ x ∈ a'.vlog.drop (a.vlog.length + 1), x.2 = .finished (.ok true)

theorem flush_ledger {K : Crc} {len : Nat} {mem : Mem} {s0 : NV} {a : Agg} (h : AInv K len mem s0 a)
    (hlen : len < 2 ^ 32) (ops : List AOp)
    (hr : FlushReturned a ((a.step K (.vol .waitForDrain)).run K ops)) :
    ∃ disk refused lost live,
      Ledger ((a.step K (.vol .waitForDrain)).run K ops) disk refused lost live ∧
      ∀ m, (∃ j, m ≤ j ∧ j < a.seen.grants.length ∧
        ∀ (k : Nat) (g : Grant), k ≤ j → a.seen.grants[k]? = some g → g.committed = true) → m ∉ live := by
  have h' := AInv.run hlen ops (h.step hlen (.vol .waitForDrain))
  generalize ha' : (a.step K (.vol .waitForDrain)).run K ops = a' at *
  obtain ⟨L, hL⟩ := (run_grows K ops (a.step K (.vol .waitForDrain))).1
  rw [ha'] at hL
  have hL : a'.vlog = a.vlog ++ (.waitForDrain, (a.vol.step .waitForDrain).2) :: L := by
    rw [hL]
    show (a.vlog ++ [(Op.waitForDrain, (a.vol.step .waitForDrain).2)]) ++ L = _
    simp
  have hops : a'.vlog.map (·.1) = a.vlog.map (·.1) ++ .waitForDrain :: L.map (·.1) := by
    rw [hL]; simp
  have hv : ((Vol.new len mem).run (a.vlog.map (·.1))).1 = a.vol := by rw [h.log.vol]
  have hout := h'.log.vol
  rw [hops, vol_run_append, h.log.vol, hL] at hout
  simp only [List.map_append, List.map_cons, Prod.mk.injEq, List.append_cancel_left_eq] at hout
  have hret : flushReturned ((Vol.new len mem).run (a.vlog.map (·.1))).1 (L.map (·.1)) := by
    rw [hv]
    rcases hr with hr | ⟨x, hx, hxo⟩
    · exact Or.inl hr
    · right
      have hd : a'.vlog.drop (a.vlog.length + 1) = L := by
        rw [hL, ← List.drop_drop, List.drop_left]; rfl
      rw [hd] at hx
      have e : (a.vol.run (.waitForDrain :: L.map (·.1))).2 =
        (a.vol.step .waitForDrain).2 :: ((a.vol.step .waitForDrain).1.run (L.map (·.1))).2 := rfl
      rw [e] at hout
      have e2 := (List.cons.inj hout.2).2
      rw [e2]
      exact List.mem_map.2 ⟨x, hx, hxo⟩
  by_cases hex : ∃ j, j < a.seen.grants.length ∧
      ∀ (k : Nat) (g : Grant), k ≤ j → a.seen.grants[k]? = some g → g.committed = true
  · -- the last such reservation
    obtain ⟨j, hj, hjmax⟩ : ∃ j, (j < a.seen.grants.length ∧
        ∀ (k : Nat) (g : Grant), k ≤ j → a.seen.grants[k]? = some g → g.committed = true) ∧
        ∀ j', (j' < a.seen.grants.length ∧
          ∀ (k : Nat) (g : Grant), k ≤ j' → a.seen.grants[k]? = some g → g.committed = true) → j' ≤ j := by
      classical
      exact ⟨_, Nat.findGreatest_spec (P := fun j => j < a.seen.grants.length ∧
        ∀ (k : Nat) (g : Grant), k ≤ j → a.seen.grants[k]? = some g → g.committed = true)
        (Nat.le_of_lt hex.choose_spec.1) hex.choose_spec,
        fun j' hj' => Nat.le_findGreatest (Nat.le_of_lt hj'.1) hj'⟩
    obtain ⟨U, O, ids, lost, hs, ht, hg⟩ := flush_gone len mem hlen (a.vlog.map (·.1)) (L.map (·.1)) hret j
      (by rw [← h.log.seen]; exact hj.1) (by rw [← h.log.seen]; exact fun k g hk hkg => hj.2 k g hk hkg)
    rw [← hops] at hs ht hg
    rw [← h'.log.seen] at ht
    rw [h'.log.vol] at hs
    obtain ⟨disk, refused, live, hl, hlive⟩ := ledger_of h' hs ht
    refine ⟨disk, refused, lost, live, hl, ?_⟩
    rintro m ⟨j', hm, hj'⟩ hmem
    obtain ⟨s, hs1, rfl⟩ := hlive m hmem
    have := hg s hs1
    have := hjmax j' hj'
    omega
  · obtain ⟨disk, refused, lost, live, hl⟩ := h'.ledger hlen
    refine ⟨disk, refused, lost, live, hl, ?_⟩
    rintro m ⟨j', hm, hj'⟩
    exact absurd ⟨j', hj'⟩ hex

end Verif.Buffer
