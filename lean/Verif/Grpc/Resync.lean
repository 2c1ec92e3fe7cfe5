import Verif.Grpc.EndsProps

/-
The decoder after an error.  `decode_data` (bd-grpc-codec/src/lib.rs:312-374, Verif.Grpc.Ends) returns an error for a frame it cannot
use; whether the stream can go on depends on where the decoder stands then.
-/
namespace Verif.Grpc.Resync
open Verif.Grpc Verif.Grpc.Ends

variable {M ZC ZD : Type}

/-- `rest` begins at the start of a frame of `whole`: some whole frames are in front of it. -/
inductive Boundary : Bytes → Bytes → Prop
  | here (w : Bytes) : Boundary w w
  | next (f b0 b1 b2 b3 : Nat) (p w rest : Bytes) (h : p.length = getU32 b0 b1 b2 b3) (hr : Boundary w rest) :
    Boundary (f :: b0 :: b1 :: b2 :: b3 :: (p ++ w)) rest

/-- The decoder stands in front of a frame of `whole`, or behind the header of one. -/
def Stands (whole : Bytes) (d : Dec (Comp ZD)) : Prop :=
  d.size = none ∧ Boundary whole d.buf ∨
    ∃ f b0 b1 b2 b3 w, d.size = some (getU32 b0 b1 b2 b3) ∧ w = f :: b0 :: b1 :: b2 :: b3 :: d.buf ∧ Boundary whole w

theorem Boundary.append {a b : Bytes} (h : Boundary a b) (x : Bytes) : Boundary (a ++ x) (b ++ x) := by
  induction h with
  | here w => exact .here _
  | next f b0 b1 b2 b3 p w rest h _ ih =>
    have := Boundary.next f b0 b1 b2 b3 p (w ++ x) (rest ++ x) h ih
    simpa using this

theorem Stands.append {whole : Bytes} {d : Dec (Comp ZD)} (h : Stands whole d) (x : Bytes) :
    Stands (whole ++ x) { d with buf := d.buf ++ x } := by
  rcases h with ⟨h1, h2⟩ | ⟨f, b0, b1, b2, b3, w, h1, h2, h3⟩
  · exact .inl ⟨h1, h2.append x⟩
  · exact .inr ⟨f, b0, b1, b2, b3, w ++ x, h1, by rw [h2]; simp, h3.append x⟩

/-- What is left of an input whose first frames were used. -/
theorem loopZ_resync (L : Lib M ZC ZD) : ∀ (fuel : Nat) (z : ZD) (d : Dec (Comp ZD)) (n : Nat) (acc : List M) (whole : Bytes),
    Stands whole d →
    (∀ e, (loopZ L fuel z d n acc).2.2.2 = .error e →
      Boundary whole (loopZ L fuel z d n acc).2.1.buf ∧ (e = .protobuf → (loopZ L fuel z d n acc).2.1.size = none) ∧
      (e ≠ .protobuf → (loopZ L fuel z d n acc).2.1.size ≠ none)) ∧
    (∀ ms, (loopZ L fuel z d n acc).2.2.2 = .ok ms → Stands whole (loopZ L fuel z d n acc).2.1) := by
  have comp : ∀ {a b c : Bytes}, Boundary a b → Boundary b c → Boundary a c := by
    intro a b c h1
    induction h1 with
    | here w => exact id
    | next f b0 b1 b2 b3 p w rest h _ ih => exact fun h2 => .next f b0 b1 b2 b3 p w c h (ih h2)
  intro fuel
  induction fuel with
  | zero => intro z d n acc whole hd; exact ⟨nofun, fun _ _ => hd⟩
  | succ fuel ih =>
    intro z d n acc whole hd
    rw [loopZ]
    cases hs : d.size with
    | none =>
      have hb : Boundary whole d.buf := by
        rcases hd with h | ⟨_, _, _, _, _, _, h, _⟩
        · exact h.2
        · rw [hs] at h; cases h
      dsimp only
      split
      · next f b0 b1 b2 b3 rest hbuf =>
        exact ih z _ n acc whole (.inr ⟨f, b0, b1, b2, b3, d.buf, rfl, hbuf, hb⟩)
      · exact ⟨nofun, fun _ _ => hd⟩
    | some k =>
      obtain ⟨f, b0, b1, b2, b3, w, h1, h2, h3⟩ : ∃ f b0 b1 b2 b3 w, d.size = some (getU32 b0 b1 b2 b3) ∧
          w = f :: b0 :: b1 :: b2 :: b3 :: d.buf ∧ Boundary whole w := by
        rcases hd with h | h
        · rw [hs] at h; cases h.1
        · exact h
      rw [hs] at h1
      have hk : k = getU32 b0 b1 b2 b3 := Option.some.inj h1
      dsimp only
      by_cases hle : k ≤ d.buf.length
      · have hdrop : Boundary whole (d.buf.drop k) := by
          refine comp h3 ?_
          rw [h2]
          have := Boundary.next f b0 b1 b2 b3 (d.buf.take k) (d.buf.drop k) (d.buf.drop k)
            (by rw [List.length_take, ← hk]; omega) (.here _)
          rwa [List.take_append_drop] at this
        rw [if_pos hle]
        cases hc : d.compressed with
        | true =>
          simp only [if_true]
          cases hdec : d.decompressor with
          | none =>
            refine ⟨fun e he => ?_, nofun⟩
            cases he
            exact ⟨hdrop, nofun, fun _ => by simp⟩
          | some c =>
            dsimp only
            rcases hq : squeeze L.zd z c (d.buf.take k) with ⟨z', c', _ | out⟩
            · refine ⟨fun e he => ?_, nofun⟩
              cases he
              exact ⟨hdrop, nofun, fun _ => by simp⟩
            · dsimp only
              cases hp : L.parse out with
              | none =>
                refine ⟨fun e he => ?_, nofun⟩
                cases he
                exact ⟨hdrop, fun _ => by simp, fun h => absurd rfl h⟩
              | some m => exact ih z' _ _ _ whole (.inl ⟨rfl, hdrop⟩)
        | false =>
          simp only [Bool.false_eq_true, if_false]
          cases hp : L.parse (d.buf.take k) with
          | none =>
            refine ⟨fun e he => ?_, nofun⟩
            cases he
            exact ⟨hdrop, fun _ => by simp, fun h => absurd rfl h⟩
          | some m => exact ih z _ _ _ whole (.inl ⟨rfl, hdrop⟩)
      · rw [if_neg hle]
        exact ⟨nofun, fun _ _ => by rw [← hs] at h1; exact .inr ⟨f, b0, b1, b2, b3, w, by simpa using h1, h2, h3⟩⟩

/-- The input in chunks, up to the first error. -/
def feed (L : Lib M ZC ZD) (z : ZD) (d : Dec (Comp ZD)) : List Bytes → ZD × Dec (Comp ZD) × Option DErr
  | [] => (z, d, none)
  | x :: xs =>
    match decodeZ L z d x with
    | (z', d', _, .ok _) => feed L z' d' xs
    | (z', d', _, .error e) => (z', d', some e)

theorem feed_stands (L : Lib M ZC ZD) : ∀ (xs : List Bytes) (z : ZD) (d : Dec (Comp ZD)) (whole : Bytes), Stands whole d →
    ∀ e, (feed L z d xs).2.2 = some e → ∃ n, n < xs.length ∧
      Boundary (whole ++ (xs.take (n + 1)).flatten) (feed L z d xs).2.1.buf ∧
      (e = .protobuf → (feed L z d xs).2.1.size = none) ∧ (e ≠ .protobuf → (feed L z d xs).2.1.size ≠ none) := by
  intro xs
  induction xs with
  | nil => intro z d whole _ e he; cases he
  | cons x xs ih =>
    intro z d whole hd e he
    have h := loopZ_resync L (2 * (d.buf ++ x).length + 2) z { d with buf := d.buf ++ x } 0 [] (whole ++ x) (hd.append x)
    change (∀ e, (decodeZ L z d x).2.2.2 = .error e → _) ∧ (∀ ms, (decodeZ L z d x).2.2.2 = .ok ms → Stands _ (decodeZ L z d x).2.1) at h
    rw [feed] at he ⊢
    rcases hq : decodeZ L z d x with ⟨z', d', k, r⟩
    rw [hq] at he h
    cases r with
    | ok ms =>
      obtain ⟨n, h1, h2, h3⟩ := ih z' d' (whole ++ x) (h.2 ms rfl) e he
      refine ⟨n + 1, Nat.succ_lt_succ h1, ?_, h3⟩
      rw [List.take_succ_cons, List.flatten_cons, ← List.append_assoc]
      exact h2
    | error e' =>
      obtain rfl : e' = e := Option.some.inj he
      have h' := h.1 e' rfl
      change Boundary _ (decodeZ L z d x).2.1.buf ∧ (_ → (decodeZ L z d x).2.1.size = none) ∧ (_ → (decodeZ L z d x).2.1.size ≠ none) at h'
      rw [hq] at h'
      refine ⟨0, Nat.succ_pos _, ?_, h'.2⟩
      simpa using h'.1

/-- **C126 (partial).** For an input in any chunks: after an error what is left of the chunks received begins with a frame; and if the error was that a message could not be
parsed, the decoder expects one, so the frames that follow are read as if the bad one had not been there.  Missing, because false: the
same for the other errors (`C126_lost_sync_violated`); and that the messages in front of the bad frame are delivered
(`C126_lost_message_violated`). -/
theorem C126_resync_partial (L : Lib M ZC ZD) (z : ZD) (d : Dec (Comp ZD)) (hd : d.size = none) (xs : List Bytes) (e : DErr)
    (he : (feed L z d xs).2.2 = some e) :
    ∃ n, n < xs.length ∧ Boundary (d.buf ++ (xs.take (n + 1)).flatten) (feed L z d xs).2.1.buf ∧
    (e = .protobuf → (feed L z d xs).2.1.size = none) ∧ (e ≠ .protobuf → (feed L z d xs).2.1.size ≠ none) :=
  feed_stands L xs z d d.buf (.inl ⟨hd, .here _⟩) e he

/-- **C126.** A payload is decompressed exactly if the flag of its frame is 1; all other values mean what 0 means. -/
theorem C126_flag (L : Lib M ZC ZD) (z : ZD) (d : Dec (Comp ZD)) (hd : d.size = none) (hb : d.buf = []) (f : Nat) (p : Bytes)
    (hp : p.length < 4294967296) (m : M) :
    (f ≠ 1 → L.parse p = some m → (decodeZ L z d (f :: putU32 p.length ++ p)).2.2.2 = .ok [m] ∧
      (decodeZ L z d (f :: putU32 p.length ++ p)).1 = z) ∧
    (d.decompressor = none → (decodeZ L z d (1 :: putU32 p.length ++ p)).2.2.2 = .error .protocol) ∧
    (∀ c z' c' out, d.decompressor = some c → squeeze L.zd z c p = (z', c', some out) → L.parse out = some m →
      (decodeZ L z d (1 :: putU32 p.length ++ p)).2.2.2 = .ok [m] ∧ (decodeZ L z d (1 :: putU32 p.length ++ p)).1 = z') := by
  obtain ⟨buf, size, compressed, decompressor⟩ := d
  simp only at hd hb
  subst hd hb
  have hg := getU32_putU32 hp
  have hf : ∀ k : Nat, ∃ j, 2 * ([] ++ (k :: putU32 p.length ++ p)).length + 2 = j + 1 + 1 + 1 := fun k => ⟨2 * (p.length + 4) + 1, by
    simp [putU32]; omega⟩
  refine ⟨fun h1 h2 => ?_, fun h1 => ?_, fun c z' c' out h1 h2 h3 => ?_⟩
  · obtain ⟨j, hj⟩ := hf f
    unfold decodeZ
    simp only [hj]
    have h1' : (f == 1) = false := by simpa using h1
    rw [loopZ]
    simp only [putU32, List.nil_append, List.cons_append, hg, h1']
    rw [loopZ]
    simp only [Nat.le_refl, if_true, Bool.false_eq_true, if_false, List.take_length, h2, List.drop_length]
    rw [loopZ]
    simp
  · obtain ⟨j, hj⟩ := hf 1
    simp only at h1
    subst h1
    unfold decodeZ
    simp only [hj]
    rw [loopZ]
    simp only [putU32, List.nil_append, List.cons_append, hg, beq_self_eq_true]
    rw [loopZ]
    simp
  · obtain ⟨j, hj⟩ := hf 1
    simp only at h1
    subst h1
    unfold decodeZ
    simp only [hj]
    rw [loopZ]
    simp only [putU32, List.nil_append, List.cons_append, hg, beq_self_eq_true]
    rw [loopZ]
    simp only [Nat.le_refl, if_true, List.take_length, h2, h3, List.drop_length]
    rw [loopZ]
    simp

/-- **C126 (violated).** After a compressed frame on a stream without compression the decoder still expects its payload: the frame that
follows, a good one, is taken apart as the payload of the bad one, and another error is returned. -/
theorem C126_lost_sync_violated (L : Lib M ZC ZD) (z : ZD) (k : Nat) (hk : 5 ≤ k) (hk' : k < 4294967296) (p : Bytes) (hp : p.length = k) (m : Bytes)
    (hm : m.length + 5 = k) :
    let first := decodeZ L z { buf := [], size := none, compressed := false, decompressor := none } (1 :: putU32 p.length ++ p)
    first.2.2.2 = .error .protocol ∧ (decodeZ L first.1 first.2.1 (0 :: putU32 m.length ++ m)).2.2.2 = .error .protocol := by
  have hf : 2 * ([] ++ (1 :: putU32 p.length ++ p)).length + 2 = (2 * (p.length + 4) + 1) + 1 + 1 + 1 := by simp [putU32]; omega
  have hg : getU32 (p.length / 16777216 % 256) (p.length / 65536 % 256) (p.length / 256 % 256) (p.length % 256) = p.length :=
    getU32_putU32 (by omega)
  intro first
  have h1 : first = (z, { buf := [], size := some p.length, compressed := true, decompressor := none }, 0, .error .protocol) := by
    show decodeZ _ _ _ _ = _
    unfold decodeZ
    simp only [hf]
    rw [loopZ]
    simp only [putU32, List.nil_append, List.cons_append, hg, beq_self_eq_true]
    rw [loopZ]
    simp
  rw [h1]
  refine ⟨rfl, ?_⟩
  unfold decodeZ
  simp only [List.nil_append]
  rw [loopZ]
  simp [putU32, hp, hm]

/-- **C126 (violated).** A message that is followed by a bad frame in the same chunk is lost, although it would have been delivered in a
chunk of its own. -/
theorem C126_lost_message_violated (L : Lib M ZC ZD) (z : ZD) (p q : Bytes) (hp : p.length < 4294967296) (hq : q.length < 4294967296)
    (m : M) (h1 : L.parse p = some m) (h2 : L.parse q = none) :
    let d : Dec (Comp ZD) := { buf := [], size := none, compressed := false, decompressor := none }
    let a := 0 :: putU32 p.length ++ p
    let b := 0 :: putU32 q.length ++ q
    (decodeZ L z d (a ++ b)).2.2.2 = .error .protobuf ∧
    (decodeZ L z d a).2.2.2 = .ok [m] ∧ (decodeZ L (decodeZ L z d a).1 (decodeZ L z d a).2.1 b).2.2.2 = .error .protobuf := by
  intro d a b
  have gp := getU32_putU32 hp
  have gq := getU32_putU32 hq
  have ha : decodeZ L z d a = (z, d, p.length, .ok [m]) := by
    have hf : 2 * (d.buf ++ a).length + 2 = (2 * (p.length + 4) + 1) + 1 + 1 + 1 := by simp [a, d, putU32]; omega
    unfold decodeZ
    rw [hf, loopZ]
    simp only [d, a, putU32, List.nil_append, List.cons_append, gp]
    rw [loopZ]
    simp only [Nat.le_refl, if_true, List.take_length, h1, List.drop_length]
    rw [loopZ]
    simp
  refine ⟨?_, by rw [ha], ?_⟩
  · have hf : 2 * (d.buf ++ (a ++ b)).length + 2 = (2 * (p.length + q.length + 10) - 2) + 1 + 1 + 1 + 1 := by
      simp [a, b, d, putU32]; omega
    unfold decodeZ
    rw [hf, loopZ]
    simp only [d, a, b, putU32, List.nil_append, List.cons_append, gp]
    rw [loopZ]
    simp only [List.length_append, Nat.le_add_right, if_true, List.take_left, h1, List.drop_left]
    rw [loopZ]
    simp only [gq]
    rw [loopZ]
    simp [h2]
  · rw [ha]
    have hf : 2 * (d.buf ++ b).length + 2 = (2 * (q.length + 4) + 1) + 1 + 1 + 1 := by simp [b, d, putU32]; omega
    show (decodeZ L z d b).2.2.2 = _
    unfold decodeZ
    rw [hf, loopZ]
    simp only [d, b, putU32, List.nil_append, List.cons_append, gq]
    rw [loopZ]
    simp [h2]

/-- Messages are their bytes, only `[9]` is none. -/
def nine : Lib Bytes Bytes (Bool × Bytes) := { toyL with parse := fun b => if b = [9] then none else some b }

def start : Dec (Comp (Bool × Bytes)) := { buf := [], size := none, compressed := false, decompressor := some .shared }

def outcome {α : Type} : Except DErr α → Option α
  | .ok a => some a
  | .error _ => none

/-- Behind a message that cannot be parsed, compressed or not, the next frame is read; behind one that cannot be decompressed it is not. -/
example :
    let a := decodeZ nine nine.zd.fresh start (0 :: putU32 1 ++ [9] ++ 0 :: putU32 2 ++ [4])
    let b := decodeZ nine nine.zd.fresh start (1 :: putU32 2 ++ [120, 9] ++ 0 :: putU32 2 ++ [4])
    let c := decodeZ nine nine.zd.fresh start (1 :: putU32 1 ++ [3] ++ 0 :: putU32 2 ++ [4])
    outcome a.2.2.2 = none ∧ outcome (decodeZ nine a.1 a.2.1 [5]).2.2.2 = some [[4, 5]] ∧
    outcome b.2.2.2 = none ∧ outcome (decodeZ nine b.1 b.2.1 [5]).2.2.2 = some [[4, 5]] ∧
    outcome c.2.2.2 = none ∧ c.2.1.size = some 1 ∧ outcome (decodeZ nine c.1 c.2.1 [5]).2.2.2 = none := by decide +kernel

end Verif.Grpc.Resync
