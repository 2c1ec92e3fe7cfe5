import Verif.Buffer.Open

/-
C118: whatever is on the disk, `RingBuffer::new` gives a buffer with the records of the file or an empty
one, and a file that is in order is never changed by it.
-/
namespace Verif.Buffer

/-- The file was left by a buffer of this size: version, size, and the checksum of the index fields. -/
def InOrder (K : Crc) (size : Nat) (i : Img) : Prop :=
  i.len = size ∧ i.version = 1 ∧ i.size = size ∧
    K.hdr i.file.nws i.file.cws i.file.lweb i.file.nrs = i.file.hdr

/-- The buffer is empty, and every history of calls gives the results of an empty queue. -/
def LikeNew (K : Crc) (ow : Bool) (s : NV) : Prop :=
  s.unread K = [] ∧ ∀ ops, ∃ q, PQ.Run K (PQ.new true ow) ops q (s.run K ops).2

theorem intact_iff {K : Crc} {size : Nat} {i : Img} (h : i.len = size) :
    i.intact K size = true ↔ InOrder K size i := by
  simp only [Img.intact, Bool.and_eq_true, decide_eq_true_eq, InOrder, h, true_and, and_assoc]
  rfl

theorem buffer_file (p : Params) (f : File) : (p.buffer f).file = f := rfl

/-- An empty header over any memory. -/
theorem empty_sim (K : Crc) (p : Params) (f : File) (hs : p.size < 2 ^ 32) (h1 : f.nws = 0)
    (h2 : f.cws = none) (h3 : f.lweb = none) (h4 : f.nrs = none) (h5 : f.sum K = f.hdr) :
    NVSim K (p.buffer f) (PQ.new true p.overwrite) := by
  obtain ⟨mem, nws, cws, lweb, nrs, hdr⟩ := f
  simp only at h1 h2 h3 h4
  subst h1 h2 h3 h4
  refine ⟨rfl, ⟨rfl, rfl, ⟨by simp [Params.buffer], ?_, Layout.nil (Nat.zero_le _) (by intro e he; cases he),
    rfl, rfl, by intro r hr; simp [PQ.new, PQ.pend] at hr, rfl, rfl⟩, ?_, fun _ => rfl, ?_⟩, rfl, rfl,
    h5.symm, ?_⟩
  · show p.size - hdrBytes < 2 ^ 32
    omega
  · intro it hit; simp [PQ.new, PQ.live, PQ.pend] at hit
  · intro k hk
    simp only [PQ.new, Option.some.injEq] at hk
    subst hk
    exact ⟨Nat.le_refl _, rfl⟩
  · intro p hp; cases hp

theorem likeNew_of {K : Crc} {ow : Bool} {s : NV} (h : NVSim K s (PQ.new true ow)) : LikeNew K ow s := by
  refine ⟨by rw [unread_nv h]; rfl, fun ops => ?_⟩
  obtain ⟨q, hq, _⟩ := h.run ops
  exact ⟨q, hq⟩

theorem init_sim (K : Crc) (p : Params) (hs : p.size < 2 ^ 32) (i : Img) :
    NVSim K (p.buffer (i.init K p.size).file) (PQ.new true p.overwrite) :=
  empty_sim K p _ hs rfl rfl rfl rfl rfl

theorem init_inOrder (K : Crc) (size : Nat) (i : Img) : InOrder K size ((i.setLen size).init K size) :=
  ⟨rfl, rfl, rfl, rfl⟩

structure Valid (p : Params) : Prop where
  hdr : 40 ≤ p.size
  vol : p.vol ≤ p.size - 40
  u32 : p.size < 2 ^ 32

theorem Valid.pass {p : Params} (h : Valid p) : ¬ (p.size < hdrBytes ∨ p.size - hdrBytes < p.vol) := by
  have h1 := h.hdr
  have h2 := h.vol
  unfold hdrBytes
  omega

/-- One attempt on a file of another length. -/
theorem attempt_other {K : Crc} {p : Params} (h : Valid p) {d : Option Img}
    (hl : (d.getD Img.empty).len ≠ p.size) :
    attempt K p {} d = (some (((d.getD Img.empty).setLen p.size).init K p.size),
      .ok (p.buffer (((d.getD Img.empty).setLen p.size).init K p.size).file)) := by
  unfold attempt
  rw [if_neg h.pass, if_neg (by simp)]
  simp only
  rw [if_neg (by simp), if_neg hl, if_neg (by simp), if_neg (by simp)]
  rfl

theorem attempt_good {K : Crc} {p : Params} (h : Valid p) {i : Img} (hi : InOrder K p.size i) :
    attempt K p {} (some i) = (some i, .ok (p.buffer i.file)) := by
  unfold attempt
  rw [if_neg h.pass, if_neg (by simp)]
  simp only [Option.getD_some]
  rw [if_neg (by simp), if_pos hi.1, if_neg (by simp), if_pos ((intact_iff hi.1).2 hi)]
  rfl

theorem attempt_bad {K : Crc} {p : Params} (h : Valid p) {i : Img} (hl : i.len = p.size)
    (hi : ¬ InOrder K p.size i) : attempt K p {} (some i) = (some i, .error .dataLoss) := by
  unfold attempt
  rw [if_neg h.pass, if_neg (by simp)]
  simp only [Option.getD_some]
  rw [if_neg (by simp), if_pos hl, if_neg (by simp), if_neg (fun e => hi ((intact_iff hl).1 e))]

theorem empty_len {p : Params} (h : Valid p) : (Option.getD none Img.empty).len ≠ p.size := by
  have := h.hdr
  show 0 ≠ p.size
  omega

/-- The three ways an opening ends when the system does not fail. -/
theorem open_cases {K : Crc} {p : Params} (h : Valid p) (d : Option Img) :
    (∃ i, d = some i ∧ InOrder K p.size i ∧
      openBuffer K p {} {} true d = (some i, .ok (p.buffer i.file), false)) ∨
    ((∀ i, d = some i → i.len ≠ p.size) ∧ ∃ i : Img, InOrder K p.size ((i.setLen p.size).init K p.size) ∧
      openBuffer K p {} {} true d =
        (some ((i.setLen p.size).init K p.size), .ok (p.buffer ((i.setLen p.size).init K p.size).file), false)) ∨
    ((∃ i, d = some i ∧ i.len = p.size ∧ ¬ InOrder K p.size i) ∧
      ∃ i : Img, InOrder K p.size ((i.setLen p.size).init K p.size) ∧
      openBuffer K p {} {} true d =
        (some ((i.setLen p.size).init K p.size), .ok (p.buffer ((i.setLen p.size).init K p.size).file), true)) := by
  by_cases hl : (d.getD Img.empty).len = p.size
  · cases d with
    | none => exact absurd hl (empty_len h)
    | some i =>
      by_cases hi : InOrder K p.size i
      · exact Or.inl ⟨i, rfl, hi, by simp only [openBuffer, attempt_good h hi]⟩
      · refine Or.inr (Or.inr ⟨⟨i, rfl, hl, hi⟩, Img.empty, init_inOrder K _ _, ?_⟩)
        have e := attempt_other (K := K) h (d := none) (empty_len h)
        rw [Option.getD_none] at e
        have e2 := attempt_bad h (show i.len = p.size from hl) hi
        simp only [openBuffer, e2, if_true, e]
  · refine Or.inr (Or.inl ⟨fun i e => by subst e; exact hl, d.getD Img.empty, init_inOrder K _ _, ?_⟩)
    simp only [openBuffer, attempt_other h hl]

/-- C118: if the system does not fail, a buffer with valid sizes can always be opened, whatever the file
holds.  The file then is in order, and the buffer is that file.  A file that was in order is as before; in
all other cases the buffer is a new one, although its memory may hold old bytes.  A file of the right
length that is not in order, and only such a file, is reported as deleted. -/
theorem C118_opens (K : Crc) (p : Params) (h1 : 40 ≤ p.size) (h2 : p.vol ≤ p.size - 40)
    (h3 : p.size < 2 ^ 32) (d : Option Img) :
    ∃ j s deleted, openBuffer K p {} {} true d = (some j, .ok s, deleted) ∧
      InOrder K p.size j ∧ s.file = j.file ∧
      (deleted = true ↔ ∃ i, d = some i ∧ i.len = p.size ∧ ¬ InOrder K p.size i) ∧
      (∀ i, d = some i → InOrder K p.size i → j = i) ∧
      ((∀ i, d = some i → ¬ InOrder K p.size i) → LikeNew K p.overwrite s) := by
  have h : Valid p := ⟨h1, h2, h3⟩
  rcases open_cases (K := K) h d with ⟨i, hd, hi, e⟩ | ⟨hn, i, hi, e⟩ | ⟨⟨i0, hd, hl, hb⟩, i, hi, e⟩
  · refine ⟨_, _, _, e, hi, buffer_file _ _, ⟨fun x => (by cases x), ?_⟩, ?_, fun hn => absurd hi (hn i hd)⟩
    · rintro ⟨k, hk, _, hb⟩
      rw [hd] at hk; cases hk
      exact absurd hi hb
    · intro k hk _
      rw [hd] at hk; cases hk
      rfl
  · refine ⟨_, _, _, e, hi, buffer_file _ _, ⟨fun x => (by cases x), ?_⟩, ?_,
      fun _ => likeNew_of (init_sim K p h3 _)⟩
    · rintro ⟨k, hk, hkl, _⟩
      exact absurd hkl (hn k hk)
    · intro k hk hko
      exact absurd hko.1 (hn k hk)
  · refine ⟨_, _, _, e, hi, buffer_file _ _, ⟨fun _ => ⟨i0, hd, hl, hb⟩, fun _ => rfl⟩, ?_,
      fun _ => likeNew_of (init_sim K p h3 _)⟩
    intro k hk hko
    rw [hd] at hk; cases hk
    exact absurd hko hb

/-- The file of an open buffer: the header fields `version` and `size` are only written by `new`. -/
def NV.image (size : Nat) (s : NV) : Img := ⟨size, 1, size, s.file⟩

theorem reopen_sim {K : Crc} {p : Params} {g : NV} {q : PQ} (h : NVSim K g q)
    (h1 : g.core.len = p.size - 40) (h2 : g.core.overwrite = p.overwrite) (h3 : g.crc = true)
    (h4 : g.core.xb = 8) :
    NVSim K (p.buffer g.file) { q.abandon with reader := none, cpos := some 0 } := by
  have hc : SameCfg (p.buffer g.file) g :=
    ⟨h3.symm, h1.symm, h4.symm, h2.symm, h.core.inv.panic.symm⟩
  obtain ⟨s1, e1, hs⟩ := opens_of h hc
  have : s1 = p.buffer g.file := by
    unfold NV.reopen at e1
    split at e1
    · cases e1
    · simp only [Option.some.injEq] at e1
      rw [← e1]
      rfl
  rw [← this]
  exact hs

theorem NVSim.inOrder {K : Crc} {g : NV} {q : PQ} (h : NVSim K g q) (size : Nat) :
    InOrder K size (g.image size) := ⟨rfl, rfl, rfl, h.hdr.symm⟩

/-- C118: what was stored is found again.  After any history of calls of a buffer that was opened on any
disk and began empty, in which nothing else altered the file's header, opening the file again with the same
parameters deletes nothing and gives the records that were not read yet. -/
theorem C118_keeps (K : Crc) (p : Params) (h1 : 40 ≤ p.size) (h2 : p.vol ≤ p.size - 40)
    (h3 : p.size < 2 ^ 32) (d : Option Img) (hd : ∀ i, d = some i → ¬ InOrder K p.size i)
    (j : Option Img) (s : NV) (del : Bool) (ho : openBuffer K p {} {} true d = (j, .ok s, del))
    (ops : List NOp) :
    ∃ q, PQ.Run K (PQ.new true p.overwrite) ops q (s.run K ops).2 ∧
      (q.broken = false →
        ∃ s', openBuffer K p {} {} true (some ((s.run K ops).1.image p.size)) =
            (some ((s.run K ops).1.image p.size), .ok s', false) ∧
          s'.unread K = (s.run K ops).1.unread K) := by
  have h : Valid p := ⟨h1, h2, h3⟩
  have hs : ∃ i : Img, s = p.buffer ((i.setLen p.size).init K p.size).file := by
    rcases open_cases (K := K) h d with ⟨i, e, hi, _⟩ | ⟨_, i, _, e⟩ | ⟨_, i, _, e⟩
    · exact absurd hi (hd i e)
    · rw [e] at ho
      simp only [Prod.mk.injEq, Except.ok.injEq] at ho
      exact ⟨i, ho.2.1.symm⟩
    · rw [e] at ho
      simp only [Prod.mk.injEq, Except.ok.injEq] at ho
      exact ⟨i, ho.2.1.symm⟩
  obtain ⟨i, rfl⟩ := hs
  obtain ⟨q, hq, hb⟩ := (init_sim K p h3 (i.setLen p.size)).run ops
  refine ⟨q, hq, fun hbr => ?_⟩
  have hn := hb hbr
  have hcfg := run_cfg K ops (p.buffer ((i.setLen p.size).init K p.size).file)
  simp only [NV.cfg, Core.geo, Prod.mk.injEq] at hcfg
  generalize ((p.buffer ((i.setLen p.size).init K p.size).file).run K ops).1 = g at hn hcfg
  refine ⟨p.buffer g.file, by simp only [openBuffer, attempt_good h (hn.inOrder p.size)]; rfl, ?_⟩
  have hr := reopen_sim (p := p) hn hcfg.2.2.1 hcfg.2.2.2 hcfg.1 hcfg.2.1
  rw [unread_nv hr, unread_nv hn]
  rfl

/-- C118: an opening that fails leaves a file that is in order as it is, whatever the system did; nothing
is deleted then. -/
theorem C118_untouched (K : Crc) (p : Params) (io io2 : Io) (removed : Bool) (i : Img)
    (hi : InOrder K p.size i) :
    (openBuffer K p io io2 removed (some i)).1 = some i ∧
    (openBuffer K p io io2 removed (some i)).2.2 = false := by
  have ha : attempt K p io (some i) = (some i, (attempt K p io (some i)).2) ∧
      (attempt K p io (some i)).2 ≠ .error .dataLoss := by
    unfold attempt
    simp only [Option.getD_some, hi.1, if_true, (intact_iff hi.1).2 hi]
    repeat' split
    all_goals first
      | (refine ⟨rfl, ?_⟩; unfold started; split <;> simp; done)
      | exact ⟨rfl, by simp⟩
  unfold openBuffer
  rw [ha.1]
  cases hr : (attempt K p io (some i)).2 with
  | ok s => exact ⟨rfl, rfl⟩
  | error e =>
    cases e with
    | dataLoss => exact absurd hr ha.2
    | invalid => exact ⟨rfl, rfl⟩
    | thread => exact ⟨rfl, rfl⟩

/-- C118: sizes that do not fit are refused before the disk is looked at. -/
theorem C118_sizes (K : Crc) (p : Params) (h : p.size < 40 ∨ p.size - 40 < p.vol) (io io2 : Io)
    (removed : Bool) (d : Option Img) :
    openBuffer K p io io2 removed d = (d, .error .invalid, false) := by
  have : attempt K p io d = (d, .error .invalid) := by
    unfold attempt hdrBytes
    rw [if_pos h]
  simp only [openBuffer, this]

/-- C118: a damaged file that cannot be removed stays as it is, and the opening fails. -/
theorem C118_not_removed (K : Crc) (p : Params) (h1 : 40 ≤ p.size) (h2 : p.vol ≤ p.size - 40)
    (h3 : p.size < 2 ^ 32) (i : Img) (hl : i.len = p.size) (hi : ¬ InOrder K p.size i) :
    openBuffer K p {} {} false (some i) = (some i, .error .dataLoss, true) := by
  have h : Valid p := ⟨h1, h2, h3⟩
  simp only [openBuffer, attempt_bad h hl hi]
  simp [attempt_bad h hl hi]

/-! ### Openings that do not come to their end -/

/-- What the openings so far made of the disk `d0`. -/
inductive OTrace (K : Crc) (p : Params) (d0 : Option Img) : Option Img → Prop where
  | same : OTrace K p d0 d0
  | gone : OTrace K p d0 none
  | made : OTrace K p d0 (some Img.empty)
  | cut (i : Img) : i.len = p.size → (InOrder K p.size i → i.file.nws = 0 ∧ i.file.cws = none ∧
      i.file.lweb = none ∧ i.file.nrs = none) → OTrace K p d0 (some i)

theorem foldl_len (l : List OStore) : ∀ (i : Img), (∀ n, OStore.len n ∉ l) →
    (l.foldl OStore.apply i).len = i.len := by
  induction l with
  | nil => intro i _; rfl
  | cons a l ih =>
    intro i h
    rw [List.foldl_cons, ih _ fun n hn => h n (List.mem_cons_of_mem _ hn)]
    cases a with
    | len n => exact absurd (List.mem_cons_self ..) (h n)
    | _ => rfl

theorem cut_ok {K : Crc} {p : Params} (h : Valid p) {i : Img} (hw : i.version = 1 → i.size ≠ p.size) (c : Cut) :
    (i.cut K p.size c).len = p.size ∧ (InOrder K p.size (i.cut K p.size c) →
      (i.cut K p.size c).file.nws = 0 ∧ (i.cut K p.size c).file.cws = none ∧
      (i.cut K p.size c).file.lweb = none ∧ (i.cut K p.size c).file.nrs = none) := by
  have hp := h.hdr
  cases c with
  | resized => exact ⟨rfl, fun ho => absurd ho.2.2.1 (hw ho.2.1)⟩
  | versioned => exact ⟨rfl, fun _ => ⟨rfl, rfl, rfl, rfl⟩⟩
  | sized => exact ⟨rfl, fun _ => ⟨rfl, rfl, rfl, rfl⟩⟩
  | done => exact ⟨rfl, fun _ => ⟨rfl, rfl, rfl, rfl⟩⟩
  | clearing f =>
    refine ⟨?_, fun ho => ?_⟩
    · show ((clearStores.filter f).foldl OStore.apply (i.setLen p.size)).len = p.size
      rw [foldl_len]
      · rfl
      · intro n hn
        have := (List.mem_filter.1 hn).1
        simp [clearStores] at this
    · exfalso
      have h1 := ho.2.1
      have h2 := ho.2.2.1
      revert h1 h2
      simp only [Img.cut, clearStores, List.filter_cons, List.filter_nil]
      cases f (.version 0) <;> cases f (.size 0) <;> cases f .nws <;> cases f .cws <;> cases f .lweb <;>
        cases f .nrs <;> cases f (.crc 0) <;>
        simp only [if_true, Bool.false_eq_true, if_false, List.foldl_cons, List.foldl_nil, OStore.apply,
          Img.setLen] <;> intro a b <;> first | omega | exact hw a b

theorem empty_wide {p : Params} : Img.empty.version = 1 → Img.empty.size ≠ p.size := by
  intro h; cases h

theorem trace_die {K : Crc} {p : Params} (h : Valid p) {d0 d : Option Img}
    (hw : ∀ i, d0 = some i → i.version = 1 → i.size = i.len) (ht : OTrace K p d0 d) (x : Death) :
    OTrace K p d0 (die K p d x) := by
  have hwide : ∀ i, d = some i → i.len ≠ p.size → i.version = 1 → i.size ≠ p.size := by
    intro i e hl hv
    cases ht with
    | same => rw [hw i e hv]; exact hl
    | gone => cases e
    | made => cases e; cases hv
    | cut k hk _ => cases e; exact absurd hk hl
  have hbase : OTrace K p d0 (some (d.getD Img.empty)) := by
    cases d with
    | none => exact .made
    | some i => exact ht
  have hcut : ∀ c, (d.getD Img.empty).len ≠ p.size → OTrace K p d0 (some ((d.getD Img.empty).cut K p.size c)) := by
    intro c hl
    have := cut_ok (K := K) h (i := d.getD Img.empty) (by
      cases d with
      | none => exact empty_wide
      | some i => exact hwide i rfl hl) c
    exact .cut _ this.1 this.2
  cases x with
  | before => exact ht
  | created => exact hbase
  | initializing c =>
    simp only [die]
    split
    · exact hbase
    · next hl => exact hcut c hl
  | removed =>
    simp only [die]
    split
    · exact .gone
    · exact hbase
  | again c =>
    simp only [die]
    split
    · have := cut_ok (K := K) h (i := Img.empty) empty_wide c
      exact .cut _ this.1 this.2
    · exact hbase

theorem die_good {K : Crc} {p : Params} {i : Img} (hi : InOrder K p.size i) (x : Death) :
    die K p (some i) x = some i := by
  have := (intact_iff hi.1).2 hi
  cases x <;> simp [die, hi.1, this]

theorem foldl_die_good {K : Crc} {p : Params} {i : Img} (hi : InOrder K p.size i) (xs : List Death) :
    xs.foldl (die K p) (some i) = some i := by
  induction xs with
  | nil => rfl
  | cons x xs ih => rw [List.foldl_cons, die_good hi, ih]

theorem trace_foldl {K : Crc} {p : Params} (h : Valid p) {d0 : Option Img}
    (hw : ∀ i, d0 = some i → i.version = 1 → i.size = i.len) (xs : List Death) :
    ∀ {d : Option Img}, OTrace K p d0 d → OTrace K p d0 (xs.foldl (die K p) d) := by
  induction xs with
  | nil => intro d ht; exact ht
  | cons x xs ih => intro d ht; exact ih (trace_die h hw ht x)

/-- C118: any number of processes that die at any point of the opening do no harm: the opening that comes
to its end finds the file that was there if it was in order, and else gives an empty buffer.  The parameters
are the same throughout, and the file that was there has in its header the size it has, as a successful
opening leaves it (missing because false: `C118_resized_violated`). -/
theorem C118_interrupted_partial (K : Crc) (p : Params) (h1 : 40 ≤ p.size) (h2 : p.vol ≤ p.size - 40)
    (h3 : p.size < 2 ^ 32) (d : Option Img) (hw : ∀ i, d = some i → i.version = 1 → i.size = i.len)
    (deaths : List Death) :
    ∃ j s deleted, openBuffer K p {} {} true (deaths.foldl (die K p) d) = (some j, .ok s, deleted) ∧
      InOrder K p.size j ∧ s.file = j.file ∧
      (∀ i, d = some i → InOrder K p.size i → j = i ∧ deleted = false) ∧
      ((∀ i, d = some i → ¬ InOrder K p.size i) → LikeNew K p.overwrite s) := by
  have h : Valid p := ⟨h1, h2, h3⟩
  obtain ⟨j, s, del, e, hj, hf, hdel, hk, hn⟩ := C118_opens K p h1 h2 h3 (deaths.foldl (die K p) d)
  refine ⟨j, s, del, e, hj, hf, ?_, fun hd => ?_⟩
  · intro i hd hi
    subst hd
    rw [foldl_die_good hi] at hk hdel
    refine ⟨hk i rfl hi, ?_⟩
    cases del with
    | false => rfl
    | true =>
      obtain ⟨k, ek, _, hb⟩ := hdel.1 rfl
      cases ek
      exact absurd hi hb
  · by_cases hall : ∀ i, deaths.foldl (die K p) d = some i → ¬ InOrder K p.size i
    · exact hn hall
    · have ht := trace_foldl (K := K) h hw deaths (d := d) .same
      have : ∃ i, deaths.foldl (die K p) d = some i ∧ InOrder K p.size i :=
        Classical.byContradiction fun hc => hall fun i ei hi => hc ⟨i, ei, hi⟩
      obtain ⟨i, ei, hi⟩ := this
      rw [ei] at ht
      have hji : j = i := hk i ei hi
      have hs : s = p.buffer i.file := by
        rw [ei] at e
        simp only [openBuffer, attempt_good h hi, Prod.mk.injEq, Except.ok.injEq] at e
        exact e.2.1.symm
      generalize hd' : some i = d' at ht
      cases ht with
      | same => exact absurd hi (hd i hd'.symm)
      | gone => cases hd'
      | made =>
        simp only [Option.some.injEq] at hd'
        subst hd'
        exact absurd hi.1 (empty_len h)
      | cut k hkl hkd =>
        simp only [Option.some.injEq] at hd'
        subst hd'
        obtain ⟨a, b, c, f⟩ := hkd hi
        rw [hs]
        exact likeNew_of (empty_sim K p _ h3 a b c f hi.2.2.2)

/-- A buffer file of 104 bytes with three records. -/
def threeRecords : NV :=
  ((Params.buffer ⟨8, 104, true⟩ ((Img.empty.setLen 104).init testCrc 104).file).run testCrc
    ([.registerProducer] ++ put [1, 2, 3, 4, 5, 6, 7, 8] ++ put [9, 10, 11, 12, 13, 14] ++ put [15, 16, 17])).1

def found (r : Option Img × Except OpenErr NV × Bool) : Option (List (List UInt8)) :=
  match r.2.1 with
  | .ok s => some ((s.unread testCrc).map (·.2))
  | .error _ => none

/-- When the size changes, two processes that die in the middle can make an altered file look in order: the
first cuts the file to the new size, the second, started with the old size again, extends it, and neither
gets to the header.  The next opening keeps the file, and the record whose bytes were cut off is lost. -/
theorem C118_resized_violated :
    let p : Params := ⟨8, 104, true⟩
    let small : Params := ⟨8, 72, true⟩
    let d := some (threeRecords.image 104)
    let d' := die testCrc p (die testCrc small d (.initializing .resized)) (.initializing .resized)
    found (openBuffer testCrc p {} {} true d) =
      some [[1, 2, 3, 4, 5, 6, 7, 8], [9, 10, 11, 12, 13, 14], [15, 16, 17]] ∧
    found (openBuffer testCrc p {} {} true d') =
      some [[1, 2, 3, 4, 5, 6, 7, 8], [9, 10, 11, 12, 13, 14]] ∧
    (openBuffer testCrc p {} {} true d').2.2 = false := by
  decide +kernel

/-- The same file: kept, emptied when the size is another one, deleted when the header is damaged, kept
when an opening fails. -/
example :
    let p : Params := ⟨8, 104, true⟩
    let i := threeRecords.image 104
    InOrder testCrc 104 i ∧
    (found (openBuffer testCrc p {} {} true (some i))).map List.length = some 3 ∧
    found (openBuffer testCrc { p with size := 105 } {} {} true (some i)) = some [] ∧
    (openBuffer testCrc { p with size := 105 } {} {} true (some i)).2.2 = false ∧
    found (openBuffer testCrc p {} {} true (some { i with version := 2 })) = some [] ∧
    (openBuffer testCrc p {} {} true (some { i with version := 2 })).2.2 = true ∧
    found (openBuffer testCrc p { mapped := false } {} true (some i)) = none ∧
    found (openBuffer testCrc p {} {} true
      ([.initializing (.clearing fun x => decide (x = .nws)), .removed, .again .sized].foldl
        (die testCrc p) (some (threeRecords.image 104)))) = some [[1, 2, 3, 4, 5, 6, 7, 8],
          [9, 10, 11, 12, 13, 14], [15, 16, 17]] := by
  refine ⟨⟨by decide +kernel, by decide +kernel, by decide +kernel, by decide +kernel⟩, ?_⟩
  decide +kernel

end Verif.Buffer
