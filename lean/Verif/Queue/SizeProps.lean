import Verif.Queue.Size
import Verif.Queue.Props

/-
C94: what a message counts for in the bounded queues against the memory it takes.
-/
namespace Verif.Size

/-! ### The memory taken -/

def Value.mem : Value → Nat
  | .string s => s.cap
  | .bytes b => b.cap

def Field.mem (f : Field) : Nat := f.key.cap + f.value.mem

/-- The heap block of a vector whose elements have size `e`, and what the elements own. -/
def Fields.mem (e : Nat) (fs : Fields) : Nat := fs.cap * e + (fs.items.map Field.mem).sum

/-- The stack part of the message, the heap blocks reachable from it. -/
def Message.mem (L : Layout) : Message → Nat
  | .emitLog l => L.message + l.message.mem + l.fields.mem L.annotated + l.matching.mem L.annotated +
      (match l.previousSession with | some b => b.cap | none => 0)
  | .addLogField f => L.message + f.mem
  | .removeLogField n => L.message + n.cap
  | .flushState => L.message

def Log.mem (L : Layout) (l : Log) : Nat :=
  L.log + l.message.mem + l.fields.mem L.field + l.matching.mem L.field + l.session.cap

/-! ### What is known of the sizes -/

/-- What holds of the sizes on any platform with pointers of at least four bytes: a structure is no smaller than its parts, an enum no
smaller than its variants, and the padding of an annotated field is small. -/
structure Layout.Ok (L : Layout) : Prop where
  value : 8 ≤ L.value
  field : 8 + L.value ≤ L.field
  annotated : L.field + L.kind ≤ L.annotated
  tuple : L.tuple = L.field
  aligned : L.annotated ≤ 2 * L.field
  padding : 2 * (L.annotated - L.field) ≤ L.vec
  message : L.level + L.logType + L.value + 2 * L.vec + L.overrides ≤ L.message
  add : L.field ≤ L.message
  flush : L.flushSender ≤ L.message
  log : L.value + 2 * L.vec + 8 ≤ L.log

/-- The sizes on a platform with 64 bit pointers. -/
def layout64 : Layout := ⟨24, 48, 56, 1, 48, 24, 4, 4, 40, 16, 200, 144⟩

theorem layout64_ok : layout64.Ok := by
  constructor <;> decide

/-! ### What is assumed of the capacities -/

/-- The capacity as the growth of `String` and `Vec<u8>` by doubling leaves it. -/
def Buf.Grown (b : Buf) : Prop := b.len ≤ b.cap ∧ b.cap ≤ 2 * b.len + 8

/-- No spare capacity. -/
def Buf.Exact (b : Buf) : Prop := b.cap = b.len

def Value.All (P : Buf → Prop) : Value → Prop
  | .string s => P s
  | .bytes b => P b

def Field.All (P : Buf → Prop) (f : Field) : Prop := P f.key ∧ f.value.All P

/-- The fields satisfy `P`, and the vector is as its growth leaves it. -/
def Fields.All (P : Buf → Prop) (fs : Fields) : Prop :=
  fs.items.length ≤ fs.cap ∧ fs.cap ≤ 2 * fs.items.length + 2 ∧ ∀ f ∈ fs.items, f.All P

def Message.All (P : Buf → Prop) : Message → Prop
  | .emitLog l => l.message.All P ∧ l.fields.All P ∧ l.matching.All P ∧ ∀ b, l.previousSession = some b → b.cap ≤ 72
  | .addLogField f => f.All P
  | .removeLogField n => P n
  | .flushState => True

def Log.All (P : Buf → Prop) (l : Log) : Prop := l.message.All P ∧ l.fields.All P ∧ l.matching.All P ∧ P l.session

/-! ### Sums -/

theorem sum_le_sum {α : Type} (l : List α) (f g : α → Nat) (h : ∀ x ∈ l, f x ≤ g x) : (l.map f).sum ≤ (l.map g).sum := by
  induction l with
  | nil => simp
  | cons a l ih =>
    have h1 := h a (by simp)
    have h2 := ih fun x hx => h x (by simp [hx])
    simp only [List.map_cons, List.sum_cons]; omega

theorem sum_add {α : Type} (l : List α) (f : α → Nat) (c : Nat) : (l.map fun x => f x + c).sum = (l.map f).sum + l.length * c := by
  induction l with
  | nil => simp
  | cons a l ih =>
    simp only [List.map_cons, List.sum_cons, List.length_cons, ih, Nat.succ_mul]; omega

theorem sum_mul {α : Type} (l : List α) (f : α → Nat) (c : Nat) : (l.map fun x => c * f x).sum = c * (l.map f).sum := by
  induction l with
  | nil => simp
  | cons a l ih =>
    simp only [List.map_cons, List.sum_cons, ih, Nat.mul_add]

/-! ### Parts -/

theorem value_exact {L : Layout} {v : Value} (h : v.All Buf.Exact) : v.mem + L.value ≤ v.size L := by
  cases v <;> simp only [Value.All, Buf.Exact] at h <;> simp only [Value.mem, Value.size] <;> omega

theorem value_grown {L : Layout} (hL : L.Ok) {v : Value} (h : v.All Buf.Grown) : v.mem + L.value ≤ 2 * v.size L := by
  have := hL.value
  cases v <;> simp only [Value.All, Buf.Grown] at h <;> simp only [Value.mem, Value.size] <;> omega

theorem value_upper {L : Layout} {v : Value} (h : v.All fun b => b.len ≤ b.cap) : v.size L ≤ L.value + v.mem := by
  cases v <;> simp only [Value.All] at h <;> simp only [Value.mem, Value.size] <;> omega

/-- What the vector counts for, given what its elements count for. -/
theorem vec_lower {k e t : Nat} {fs : Fields} {sz : Field → Nat} {base : Nat}
    (hcap : fs.items.length ≤ fs.cap) (hgrow : fs.cap ≤ 2 * fs.items.length + 2)
    (hsz : ∀ f ∈ fs.items, f.mem + (e + base) ≤ k * sz f) (hte : t ≤ e) (hb : e - t ≤ base) :
    fs.mem e ≤ k * (fs.items.map sz).sum + (fs.cap - fs.items.length) * t + 2 * (e - t) := by
  have h1 : (fs.items.map Field.mem).sum + fs.items.length * (e + base) ≤ k * (fs.items.map sz).sum := by
    rw [← sum_add, ← sum_mul]
    exact sum_le_sum _ _ _ hsz
  obtain ⟨x, hx⟩ : ∃ x, fs.cap = fs.items.length + x := ⟨fs.cap - fs.items.length, by omega⟩
  obtain ⟨d, hd⟩ : ∃ d, e = t + d := ⟨e - t, by omega⟩
  subst hd
  have hxn : x ≤ fs.items.length + 2 := by omega
  have h2 : x * d ≤ (fs.items.length + 2) * d := Nat.mul_le_mul_right d hxn
  have h3 : fs.items.length * d ≤ fs.items.length * base := Nat.mul_le_mul_left _ (by omega)
  have e3 : fs.cap - fs.items.length = x := by omega
  have e4 : t + d - t = d := by omega
  unfold Fields.mem
  rw [e3, e4, hx]
  have e1 : (fs.items.length + x) * (t + d) = fs.items.length * (t + d) + (x * t + x * d) := by
    rw [Nat.add_mul, Nat.mul_add x]
  have e2 : fs.items.length * (t + d + base) = fs.items.length * (t + d) + fs.items.length * base := Nat.mul_add _ _ _
  rw [Nat.add_mul] at h2
  rw [e1]
  rw [e2] at h1
  omega

theorem vec_annotated_exact {L : Layout} (hL : L.Ok) {fs : Fields} (h : fs.All Buf.Exact) :
    fs.mem L.annotated ≤ fs.annotatedSize L := by
  obtain ⟨h1, h2, h3⟩ := h
  have ha := hL.annotated
  have ht := hL.tuple
  have hp := hL.padding
  have hf := hL.field
  have hal := hL.aligned
  have := vec_lower (k := 1) (e := L.annotated) (t := L.tuple) (base := L.field + L.value + L.kind) (sz := Field.annotatedSize L) h1 h2
    (by
      intro f hf'
      obtain ⟨hk, hv⟩ := h3 f hf'
      have := value_exact (L := L) hv
      simp only [Buf.Exact] at hk
      simp only [Field.mem, Field.annotatedSize, Field.size]
      omega) (by omega) (by omega)
  unfold Fields.annotatedSize
  rw [ht] at this ⊢
  omega

theorem vec_annotated_grown {L : Layout} (hL : L.Ok) {fs : Fields} (h : fs.All Buf.Grown) :
    fs.mem L.annotated ≤ 2 * fs.annotatedSize L := by
  obtain ⟨h1, h2, h3⟩ := h
  have ha := hL.annotated
  have ht := hL.tuple
  have hp := hL.padding
  have hf := hL.field
  have hal := hL.aligned
  have hvv := hL.value
  have := vec_lower (k := 2) (e := L.annotated) (t := L.tuple) (base := L.field + L.value + L.kind) (sz := Field.annotatedSize L) h1 h2
    (by
      intro f hf'
      obtain ⟨hk, hv⟩ := h3 f hf'
      have := value_grown hL hv
      simp only [Buf.Grown] at hk
      simp only [Field.mem, Field.annotatedSize, Field.size]
      omega) (by omega) (by omega)
  unfold Fields.annotatedSize
  rw [ht] at this ⊢
  omega

theorem vec_exact {L : Layout} (hL : L.Ok) {fs : Fields} (h : fs.All Buf.Exact) : fs.mem L.field ≤ fs.size L := by
  obtain ⟨h1, h2, h3⟩ := h
  have ht := hL.tuple
  have := vec_lower (k := 1) (e := L.field) (t := L.field) (base := 0) (sz := Field.size L) h1 h2
    (by
      intro f hf'
      obtain ⟨hk, hv⟩ := h3 f hf'
      have := value_exact (L := L) hv
      simp only [Buf.Exact] at hk
      simp only [Field.mem, Field.size]
      omega) (by omega) (by omega)
  unfold Fields.size
  rw [ht]
  omega

theorem vec_grown {L : Layout} (hL : L.Ok) {fs : Fields} (h : fs.All Buf.Grown) : fs.mem L.field ≤ 2 * fs.size L := by
  obtain ⟨h1, h2, h3⟩ := h
  have ht := hL.tuple
  have hf := hL.field
  have := vec_lower (k := 2) (e := L.field) (t := L.field) (base := 0) (sz := Field.size L) h1 h2
    (by
      intro f hf'
      obtain ⟨hk, hv⟩ := h3 f hf'
      have := value_grown hL hv
      simp only [Buf.Grown] at hk
      simp only [Field.mem, Field.size]
      omega) (by omega) (by omega)
  unfold Fields.size
  rw [ht]
  omega

/-! ### The theorems -/

/-- **C94 (partial).** If no string or byte vector has spare capacity, the vectors are as their growth leaves them, and the session id of
an override takes at most 72 bytes, a message counts for at least the memory it takes.

Missing: spare capacity of strings, long session ids, see the violations. -/
theorem C94_covers_partial (L : Layout) (hL : L.Ok) (m : Message) (h : m.All Buf.Exact) : m.mem L ≤ m.size L := by
  cases m with
  | emitLog l =>
    obtain ⟨h1, h2, h3, h4⟩ := h
    have e1 := value_exact (L := L) h1
    have e2 := vec_annotated_exact hL h2
    have e3 := vec_annotated_exact hL h3
    simp only [Message.mem, Message.size, Line.size]
    cases hp : l.previousSession with
    | none => simp only; omega
    | some b => have := h4 b hp; simp only; omega
  | addLogField f =>
    obtain ⟨hk, hv⟩ := h
    have := value_exact (L := L) hv
    simp only [Buf.Exact] at hk
    simp only [Message.mem, Message.size, Field.mem, Field.size]; omega
  | removeLogField n => simp only [Message.All, Buf.Exact] at h; simp only [Message.mem, Message.size]; omega
  | flushState => simp only [Message.mem, Message.size]; omega

/-- **C94 (partial, log).** The same of a log kept before the configuration. -/
theorem C94_covers_log_partial (L : Layout) (hL : L.Ok) (l : Log) (h : l.All Buf.Exact) : l.mem L ≤ l.size L := by
  obtain ⟨h1, h2, h3, h4⟩ := h
  have e1 := value_exact (L := L) h1
  have e2 := vec_exact hL h2
  have e3 := vec_exact hL h3
  simp only [Buf.Exact] at h4
  simp only [Log.mem, Log.size]; omega

/-- **C94 (factor two).** With capacities as growth by doubling leaves them, the memory a message takes is at most twice what it counts
for. -/
theorem C94_twice (L : Layout) (hL : L.Ok) (m : Message) (h : m.All Buf.Grown) : m.mem L ≤ 2 * m.size L := by
  cases m with
  | emitLog l =>
    obtain ⟨h1, h2, h3, h4⟩ := h
    have e1 := value_grown hL h1
    have e2 := vec_annotated_grown hL h2
    have e3 := vec_annotated_grown hL h3
    simp only [Message.mem, Message.size, Line.size]
    cases hp : l.previousSession with
    | none => simp only; omega
    | some b => have := h4 b hp; simp only; omega
  | addLogField f =>
    obtain ⟨hk, hv⟩ := h
    have := value_grown hL hv
    have := hL.field
    simp only [Buf.Grown] at hk
    simp only [Message.mem, Message.size, Field.mem, Field.size]; omega
  | removeLogField n =>
    have := hL.add; have := hL.field
    simp only [Message.All, Buf.Grown] at h; simp only [Message.mem, Message.size]; omega
  | flushState => simp only [Message.mem, Message.size]; omega

/-- **C94 (factor two, log).** -/
theorem C94_twice_log (L : Layout) (hL : L.Ok) (l : Log) (h : l.All Buf.Grown) : l.mem L ≤ 2 * l.size L := by
  obtain ⟨h1, h2, h3, h4⟩ := h
  have e1 := value_grown hL h1
  have e2 := vec_grown hL h2
  have e3 := vec_grown hL h3
  have := hL.log
  simp only [Buf.Grown] at h4
  simp only [Log.mem, Log.size]; omega

theorem vec_upper {e t : Nat} {fs : Fields} {sz : Field → Nat} (hcap : fs.items.length ≤ fs.cap)
    (hsz : ∀ f ∈ fs.items, sz f ≤ 3 * e + 3 * f.mem) (hte : t ≤ e) :
    (fs.items.map sz).sum + (fs.cap - fs.items.length) * t ≤ 3 * fs.mem e := by
  have h1 : (fs.items.map sz).sum ≤ 3 * (fs.items.map Field.mem).sum + fs.items.length * (3 * e) := by
    rw [← sum_mul, ← sum_add]
    exact sum_le_sum _ _ _ fun f hf => by have := hsz f hf; omega
  obtain ⟨x, hx⟩ : ∃ x, fs.cap = fs.items.length + x := ⟨fs.cap - fs.items.length, by omega⟩
  have e3 : fs.cap - fs.items.length = x := by omega
  have h2 : x * t ≤ x * e := Nat.mul_le_mul_left _ hte
  unfold Fields.mem
  rw [e3, hx, Nat.add_mul]
  have e4 : fs.items.length * (3 * e) = 3 * (fs.items.length * e) := by
    rw [Nat.mul_left_comm]
  rw [e4] at h1
  omega

/-- **C94 (not wasteful).** A message counts for at most three times the memory it takes, and 72 bytes. -/
theorem C94_at_most (L : Layout) (hL : L.Ok) (l : Line)
    (hm : l.message.All fun b => b.len ≤ b.cap)
    (hf : l.fields.items.length ≤ l.fields.cap ∧ ∀ f ∈ l.fields.items, f.All fun b => b.len ≤ b.cap)
    (hg : l.matching.items.length ≤ l.matching.cap ∧ ∀ f ∈ l.matching.items, f.All fun b => b.len ≤ b.cap) :
    (Message.emitLog l).size L ≤ 3 * (Message.emitLog l).mem L + 72 := by
  have ha := hL.annotated
  have ht := hL.tuple
  have hfl := hL.field
  have hms := hL.message
  have key : ∀ f : Field, f.All (fun b => b.len ≤ b.cap) → f.annotatedSize L ≤ 3 * L.annotated + 3 * f.mem := by
    intro f ⟨hk, hv⟩
    have := value_upper (L := L) hv
    simp only at hk
    simp only [Field.annotatedSize, Field.size, Field.mem]; omega
  have e1 := value_upper (L := L) hm
  have e2 := vec_upper (t := L.tuple) (e := L.annotated) hf.1 (fun f h => key f (hf.2 f h)) (by omega)
  have e3 := vec_upper (t := L.tuple) (e := L.annotated) hg.1 (fun f h => key f (hg.2 f h)) (by omega)
  simp only [Message.mem, Message.size, Line.size, Fields.annotatedSize]
  omega

/-! ### The queue -/

open Verif.Queue in
/-- Every message inside the channel was given to it by some call. -/
theorem queue_from (P : Msg → Prop) : ∀ (as : List Act) (s : Chan),
    (∀ t m, Act.reserve t m ∈ as → P m) → (∀ m ∈ s.queue, P m) → (∀ c ∈ s.calls, P c.msg) →
    (∀ m, s.held = some m → P m) →
    (∀ m ∈ (s.run as).queue, P m) ∧ ∀ m, (s.run as).held = some m → P m
  | [], _, _, hq, _, hh => ⟨hq, hh⟩
  | a :: as, s, ha, hq, hc, hh => by
    have hdrop : ∀ t, ∀ c ∈ s.drop t, P c.msg := fun t c h => hc c (List.mem_filter.1 h).1
    have hcall : ∀ t c, s.call? t = some c → P c.msg := fun t c h => hc c (List.mem_of_find?_eq_some h)
    have has : ∀ t m, Act.reserve t m ∈ as → P m := fun t m h => ha t m (by simp [h])
    apply queue_from P as _ has
    all_goals
      cases a with
      | reserve t m =>
        have hm := ha t m (by simp)
        simp only [Chan.step]
        split
        · assumption
        · split <;> first
            | exact hq
            | exact hh
            | (intro c hcm; rcases List.mem_cons.1 hcm with rfl | h
               · exact hm
               · exact hc c h)
      | enqueue t =>
        simp only [Chan.step]
        split
        · rename_i t' m hcl
          have hm := hcall _ _ hcl
          split
          · first
              | exact hq
              | exact hh
              | (intro c hcm; rcases List.mem_cons.1 hcm with rfl | h
                 · exact hm
                 · exact hdrop t c h)
          · split <;> first
              | exact hq
              | exact hh
              | exact hdrop t
              | (intro c hcm; rcases List.mem_cons.1 hcm with rfl | h
                 · exact hm
                 · exact hdrop t c h)
              | (intro x hx; rcases List.mem_append.1 hx with h | h
                 · exact hq x h
                 · simp at h; subst h; exact hm)
        · assumption
      | void t =>
        simp only [Chan.step]
        split
        · split <;> first | exact hq | exact hh | exact hc | exact hdrop t
        · assumption
      | recv =>
        simp only [Chan.step]
        split
        · rename_i hn hqq
          first
            | exact hc
            | (intro x hx; simp only [Option.some.injEq] at hx; subst hx; exact hq _ (by rw [hqq]; simp))
            | (intro x hx; exact hq x (by rw [hqq]; exact List.mem_cons_of_mem _ hx))
        · assumption
      | release =>
        simp only [Chan.step]
        split
        · split <;> first | exact hq | exact hh | exact hc | (intro x hx; simp at hx)
        · assumption
      | close => assumption

open Verif.Queue in
/-- **C94 (queue).** If the messages given to the channel have the sizes above and capacities as growth leaves them, then whatever the
senders and the receiver do, the memory taken by all the messages inside is at most twice the capacity of the channel. -/
theorem C94_queue (L : Layout) (hL : L.Ok) (content : Nat → Message) (slots capacity : Nat) (as : List Act)
    (hs : ∀ t m, Act.reserve t m ∈ as → m.size = (content m.id).size L ∧ (content m.id).All Buf.Grown) :
    (((Chan.init slots capacity).run as).queue.map fun m => (content m.id).mem L).sum ≤ 2 * capacity := by
  have hq := (queue_from (fun m => m.size = (content m.id).size L ∧ (content m.id).All Buf.Grown) as (Chan.init slots capacity) hs
    (by simp [Chan.init]) (by simp [Chan.init]) (by simp [Chan.init])).1
  have hb := (C10_budget slots capacity as).1
  have h2 : (((Chan.init slots capacity).run as).queue.map fun m => (content m.id).mem L).sum ≤
      (((Chan.init slots capacity).run as).queue.map fun m => 2 * m.size).sum := by
    apply sum_le_sum
    intro m hm
    obtain ⟨h1, h2⟩ := hq m hm
    rw [h1]
    exact C94_twice L hL _ h2
  rw [sum_mul] at h2
  have e : total ((Chan.init slots capacity).run as).queue = (((Chan.init slots capacity).run as).queue.map Msg.size).sum := rfl
  omega

/-! ### Violations -/

/-- **C94 violated (spare capacity).** The capacity of a string is not counted: a message with an empty string that has any capacity `c`
counts for a constant. -/
theorem C94_capacity_violated (L : Layout) : ∃ k, ∀ c,
    (Message.removeLogField ⟨0, c⟩).size L = k ∧ (Message.removeLogField ⟨0, c⟩).mem L = L.message + c :=
  ⟨L.message, fun _ => ⟨rfl, rfl⟩⟩

/-- **C94 violated (session id).** The session id given with an override is not counted: a log with any long id counts as without. -/
theorem C94_session_violated (L : Layout) (v : Value) (n : Nat) :
    let with_ := Message.emitLog ⟨v, ⟨[], 0⟩, ⟨[], 0⟩, some ⟨n, n⟩⟩
    let without := Message.emitLog ⟨v, ⟨[], 0⟩, ⟨[], 0⟩, none⟩
    with_.size L = without.size L ∧ with_.mem L = without.mem L + n := by
  refine ⟨rfl, ?_⟩
  simp only [Message.mem]; omega

/-- **C94 violated (reserved slots).** The reserved slots of the annotated fields are counted with too small a size: with many of them a
log of the queue takes more memory than it counts for. -/
theorem C94_slots_violated : ∃ n : Nat,
    let m := Message.emitLog ⟨.string ⟨0, 0⟩, ⟨[], n⟩, ⟨[], 0⟩, none⟩
    m.size layout64 < m.mem layout64 :=
  ⟨100, by decide⟩

example : (Message.emitLog ⟨.string ⟨5, 5⟩, ⟨[⟨⟨3, 3⟩, .bytes ⟨4, 4⟩⟩], 4⟩, ⟨[], 0⟩, some ⟨36, 36⟩⟩).mem layout64 = 472 ∧
    (Message.emitLog ⟨.string ⟨5, 5⟩, ⟨[⟨⟨3, 3⟩, .bytes ⟨4, 4⟩⟩], 4⟩, ⟨[], 0⟩, some ⟨36, 36⟩⟩).size layout64 = 677 := by decide

example : (Message.emitLog ⟨.string ⟨5, 5⟩, ⟨[⟨⟨3, 3⟩, .bytes ⟨4, 4⟩⟩], 4⟩, ⟨[], 0⟩, some ⟨36, 36⟩⟩).All Buf.Exact := by
  simp [Message.All, Value.All, Fields.All, Field.All, Buf.Exact]

end Verif.Size
