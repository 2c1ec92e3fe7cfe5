import Verif.Proto.WireProps
/-
What becomes of a message that was not written to the end (C104): reading any part from the beginning is refused, unless the cut
is between two fields.
-/
namespace Verif.Wire

open Handshake (Bytes varint readVarint readField)

variable {M : Type} {fm : Nat → M → Prop} {utf8 : Bytes → Bool} {enc : Nat → M → Bytes → Prop} {rd : Nat → Bytes → Option M}

/-! ### More input does not change what was read -/

theorem readVarint_ext : ∀ {p : Bytes} {n : Nat} {r : Bytes} (q : Bytes), readVarint p = some (n, r) → readVarint (p ++ q) = some (n, r ++ q)
  | [], _, _, _, h => by simp [readVarint] at h
  | b :: p, n, r, q, h => by
    rw [List.cons_append]
    rw [readVarint] at h ⊢
    split at h
    · rename_i hb
      rw [if_pos hb]
      simp only [Option.some.injEq, Prod.mk.injEq] at h
      rw [h.1, h.2]
    · rename_i hb
      rw [if_neg hb]
      cases hr : readVarint p with
      | none => rw [hr] at h; cases h
      | some x =>
        obtain ⟨m, s⟩ := x
        rw [hr] at h
        rw [readVarint_ext q hr]
        simp only [Option.map_some, Option.some.injEq, Prod.mk.injEq] at h ⊢
        exact ⟨h.1, by rw [h.2]⟩

theorem take_drop_ext {p q : Bytes} {k : Nat} (h : k ≤ p.length) : (p ++ q).take k = p.take k ∧ (p ++ q).drop k = p.drop k ++ q :=
  ⟨List.take_append_of_le_length h, List.drop_append_of_le_length h⟩

theorem readField_ext {p b r : Bytes} (q : Bytes) (h : readField p = some (b, r)) : readField (p ++ q) = some (b, r ++ q) := by
  unfold readField at h ⊢
  cases hr : readVarint p with
  | none => rw [hr] at h; cases h
  | some x =>
    obtain ⟨n, s⟩ := x
    rw [hr] at h
    rw [readVarint_ext q hr]
    dsimp only at h ⊢
    split at h
    · rename_i hn
      simp only [Option.some.injEq, Prod.mk.injEq] at h
      rw [if_pos (by rw [List.length_append]; omega), (take_drop_ext hn).1, (take_drop_ext hn).2, h.1, h.2]
    · cases h

theorem readLe_ext {k : Nat} {p r : Bytes} {n : Nat} (q : Bytes) (h : readLe k p = some (n, r)) : readLe k (p ++ q) = some (n, r ++ q) := by
  unfold readLe at h ⊢
  split at h
  · rename_i hn
    simp only [Option.some.injEq, Prod.mk.injEq] at h
    rw [if_pos (by rw [List.length_append]; omega), (take_drop_ext hn).1, (take_drop_ext hn).2, h.1, h.2]
  · cases h

theorem map_ext {α β : Type} {f : Bytes → Option (α × Bytes)} (hf : ∀ {p a r} q, f p = some (a, r) → f (p ++ q) = some (a, r ++ q)) {g : α → β} {p : Bytes} {a : β}
    {r : Bytes} (q : Bytes) (h : ((f p).map fun x => (g x.1, x.2)) = some (a, r)) : ((f (p ++ q)).map fun x => (g x.1, x.2)) = some (a, r ++ q) := by
  cases hx : f p with
  | none => rw [hx] at h; cases h
  | some x =>
    obtain ⟨b, s⟩ := x
    rw [hx] at h
    rw [hf q hx]
    simp only [Option.map_some, Option.some.injEq, Prod.mk.injEq] at h ⊢
    exact ⟨h.1, by rw [h.2]⟩

theorem readNum_ext {k : Kind} {p r : Bytes} {n : Nat} (q : Bytes) (h : readNum k p = some (n, r)) : readNum k (p ++ q) = some (n, r ++ q) := by
  cases k <;> first | exact readLe_ext q h | exact map_ext readVarint_ext q h

theorem readV_ext {f : Field} {single : Bool} {p r : Bytes} {v : V M} (q : Bytes) (h : readV utf8 rd f single p = some (v, r)) :
    readV utf8 rd f single (p ++ q) = some (v, r ++ q) := by
  unfold readV at h ⊢
  split at h
  · rename_i hl
    rw [if_pos hl]
    split at h
    · rename_i hs
      rw [if_pos hs]
      exact map_ext (g := fun n => V.nums [n]) readNum_ext q h
    · rename_i hs
      rw [if_neg hs]
      cases hx : readField p with
      | none => rw [hx] at h; cases h
      | some x =>
        obtain ⟨b, s⟩ := x
        rw [hx] at h
        rw [readField_ext q hx]
        dsimp only at h ⊢
        cases hy : readNums f.rk b.length b with
        | none => rw [hy] at h; cases h
        | some l =>
          rw [hy] at h
          simp only [Option.map_some, Option.some.injEq, Prod.mk.injEq] at h ⊢
          exact ⟨h.1, by rw [h.2]⟩
  · rename_i hl
    rw [if_neg hl]
    cases hk : f.rk with
    | str =>
      rw [hk] at h
      dsimp only at h ⊢
      cases hx : readField p with
      | none => rw [hx] at h; cases h
      | some x =>
        obtain ⟨b, s⟩ := x
        rw [hx] at h
        rw [readField_ext q hx]
        dsimp only at h ⊢
        split at h
        · rename_i hu
          rw [if_pos hu]
          simp only [Option.some.injEq, Prod.mk.injEq] at h ⊢
          exact ⟨h.1, by rw [h.2]⟩
        · cases h
    | msg ix =>
      rw [hk] at h
      dsimp only at h ⊢
      cases hx : readField p with
      | none => rw [hx] at h; cases h
      | some x =>
        obtain ⟨b, s⟩ := x
        rw [hx] at h
        rw [readField_ext q hx]
        dsimp only at h ⊢
        cases hy : rd ix b with
        | none => rw [hy] at h; cases h
        | some l =>
          rw [hy] at h
          simp only [Option.map_some, Option.some.injEq, Prod.mk.injEq] at h ⊢
          exact ⟨h.1, by rw [h.2]⟩
    | bytes => rw [hk] at h; exact map_ext (g := fun b => V.bytes b) readField_ext q h
    | _ => rw [hk] at h; exact map_ext (g := fun n => V.num n) readNum_ext q h

theorem readRaw_ext {tag : Nat} {p r : Bytes} {u : Nat × Raw} (q : Bytes) (h : readRaw tag p = some (u, r)) : readRaw tag (p ++ q) = some (u, r ++ q) := by
  unfold readRaw at h ⊢
  split at h
  · cases h
  rename_i h0
  rw [if_neg h0]
  split at h
  · rename_i h1
    rw [if_pos h1]
    exact map_ext (g := fun n => (tag / 8, Raw.varint n)) readVarint_ext q h
  rename_i h1
  rw [if_neg h1]
  split at h
  · rename_i h2
    rw [if_pos h2]
    exact map_ext (g := fun n => (tag / 8, Raw.f64 n)) readLe_ext q h
  rename_i h2
  rw [if_neg h2]
  split at h
  · rename_i h3
    rw [if_pos h3]
    exact map_ext (g := fun n => (tag / 8, Raw.len n)) readField_ext q h
  rename_i h3
  rw [if_neg h3]
  split at h
  · rename_i h4
    rw [if_pos h4]
    exact map_ext (g := fun n => (tag / 8, Raw.f32 n)) readLe_ext q h
  · cases h

/-! ### One field -/

/-- One turn of the loop. -/
def one (utf8 : Bytes → Bool) (rd : Nat → Bytes → Option M) (fs : List Field) (bs : Bytes) : Option (((Nat × Field × V M) ⊕ (Nat × Raw)) × Bytes) :=
  match readVarint bs with
  | none => none
  | some (tag, r) =>
    match findArm fs 0 tag with
    | some (i, f, single) => (readV utf8 rd f single r).map fun x => (.inl (i, f, x.1), x.2)
    | none => (readRaw tag r).map fun x => (.inr x.1, x.2)

def put (key : M → Option Bytes) (fs : List Field) (m : MsgF M) : ((Nat × Field × V M) ⊕ (Nat × Raw)) → MsgF M
  | .inl x => { m with known := absorb key fs x.1 x.2.1 x.2.2 m.known }
  | .inr u => { m with unknown := m.unknown ++ [u] }

theorem loop_one (key : M → Option Bytes) (fs : List Field) (n : Nat) (m : MsgF M) {bs : Bytes} (h : bs ≠ []) :
    loop utf8 key rd fs (n + 1) m bs = (one utf8 rd fs bs).bind fun x => loop utf8 key rd fs n (put key fs m x.1) x.2 := by
  cases bs with
  | nil => exact absurd rfl h
  | cons b s =>
    unfold one
    rw [loop]
    · cases hr : readVarint (b :: s) with
      | none => rfl
      | some x =>
        obtain ⟨tag, r⟩ := x
        dsimp only
        cases ha : findArm fs 0 tag with
        | none =>
          dsimp only
          cases hw : readRaw tag r with
          | none => rfl
          | some u => rfl
        | some a =>
          obtain ⟨i, f, single⟩ := a
          dsimp only
          cases hw : readV utf8 rd f single r with
          | none => rfl
          | some u => rfl
    · nofun

theorem one_ext {fs : List Field} {p r : Bytes} {x : (Nat × Field × V M) ⊕ (Nat × Raw)} (q : Bytes) (h : one utf8 rd fs p = some (x, r)) :
    one utf8 rd fs (p ++ q) = some (x, r ++ q) := by
  unfold one at h ⊢
  cases hr : readVarint p with
  | none => rw [hr] at h; cases h
  | some y =>
    obtain ⟨tag, s⟩ := y
    rw [hr] at h
    rw [readVarint_ext q hr]
    dsimp only at h ⊢
    cases ha : findArm fs 0 tag with
    | none =>
      rw [ha] at h
      exact map_ext (g := fun u => Sum.inr u) readRaw_ext q h
    | some a =>
      obtain ⟨i, f, single⟩ := a
      rw [ha] at h
      exact map_ext (g := fun v => Sum.inl (i, f, v)) readV_ext q h

/-- A field is read as a whole. -/
theorem one_item (H : ∀ ix m b, fm ix m → enc ix m b → rd ix b = some m) {fs : List Field} (hok : ∀ f ∈ fs, f.ok = true) (hn : (tags fs).Nodup) {it : Item M} {a : Bytes}
    (he : EncItem enc (fs.map Field.sig) it a) (hv : ∀ x, it = .inl x → ∀ s, (fs.map Field.sig)[x.1]? = some s → Typed fm utf8 s x.2)
    (hu : ∀ u, it = .inr u → FitsU (fs.map Field.sig) u) : a ≠ [] ∧ ∃ x, ∀ r, one utf8 rd fs (a ++ r) = some (x, r) := by
  cases it with
  | inr u =>
    obtain ⟨t, p, rfl, ht, hraw⟩ := he
    have hfu := hu u rfl
    refine ⟨fun e => isVarint_ne ht.1 (List.append_eq_nil_iff.1 e).1, .inr u, fun r => ?_⟩
    unfold one
    rw [List.append_assoc, readVarint_isVarint ht.1]
    simp only [unknown_arm hok hfu, readRaw_enc (t := t) hfu hraw, Option.map_some]
  | inl x =>
    obtain ⟨i, v⟩ := x
    obtain ⟨s, hsi, t, p, rfl, hcase⟩ := he
    have hpv := hv (i, v) rfl s hsi
    rw [List.getElem?_map] at hsi
    cases hfi : fs[i]? with
    | none => dsimp only at hsi; rw [hfi] at hsi; cases hsi
    | some f =>
    dsimp only at hsi
    rw [hfi] at hsi
    have hsf : f.sig = s := Option.some.inj hsi
    subst hsf
    have hfo := hok f (List.mem_of_getElem? hfi)
    obtain ⟨_, htag, _⟩ := ok_parts hfo
    rcases hcase with ⟨ht, hpay⟩ | ⟨hl, ht, x, rfl, hx⟩
    · refine ⟨fun e => isVarint_ne ht.1 (List.append_eq_nil_iff.1 e).1, .inl (i, f, v), fun r => ?_⟩
      unfold one
      rw [List.append_assoc, readVarint_isVarint ht.1]
      simp only [← htag, findArm_some hn hfi, readV_typed H hpv hpay, Nat.zero_add, Option.map_some]
    · have hxr : inRange f.rk x := hpv.2 x (by simp)
      have hl : f.label = .packed := hl
      have hx : EncNum f.rk x p := hx
      have ha : f.alt = some (8 * f.sig.num + wireType f.sig.kind) := (ok_alt hfo).1 hl
      refine ⟨fun e => isVarint_ne ht.1 (List.append_eq_nil_iff.1 e).1, .inl (i, f, .nums [x]), fun r => ?_⟩
      unfold one
      rw [List.append_assoc, readVarint_isVarint ht.1]
      simp only [findArm_alt hn hfi ha, readV_single hl hx hxr, Nat.zero_add, Option.map_some]

/-! ### Cuts -/

/-- What is left of some fields is some of them from the first, or it is refused. -/
theorem cut_items (H : ∀ ix m b, fm ix m → enc ix m b → rd ix b = some m) (key : M → Option Bytes) {fs : List Field} (hok : ∀ f ∈ fs, f.ok = true) (hn : (tags fs).Nodup) :
    ∀ (items : List (Item M)) (m : MsgF M) (n : Nat) (bs p : Bytes), EncItems enc (fs.map Field.sig) items bs →
      (∀ x ∈ knowns items, ∀ s, (fs.map Field.sig)[x.1]? = some s → Typed fm utf8 s x.2) → (∀ u ∈ unknowns items, FitsU (fs.map Field.sig) u) → p <+: bs → p.length ≤ n →
      (∃ i, EncItems enc (fs.map Field.sig) (items.take i) p) ∨ loop utf8 key rd fs n m p = none
  | [], m, n, bs, p, he, _, _, hp, _ => by
    rw [EncItems] at he
    subst he
    exact Or.inl ⟨0, List.prefix_nil.1 hp⟩
  | it :: items, m, n, bs, p, he, hv, hu, hp, hlen => by
    obtain ⟨a, b, ha, hb, rfl⟩ := he
    obtain ⟨hane, x, hx⟩ := one_item (utf8 := utf8) H hok hn ha (fun x e => hv x (by subst e; exact List.mem_cons_self)) (fun u e => hu u (by subst e; exact List.mem_cons_self))
    cases hpe : p with
    | nil => exact Or.inl ⟨0, rfl⟩
    | cons c p0 =>
    rw [← hpe]
    have hpne : p ≠ [] := by rw [hpe]; nofun
    obtain ⟨n', rfl⟩ : ∃ n', n = n' + 1 := ⟨n - 1, by have := List.length_pos_iff.2 hpne; omega⟩
    rw [loop_one key fs n' m hpne]
    rcases List.prefix_or_prefix_of_prefix hp (List.prefix_append a b) with ⟨q, hq⟩ | ⟨q, hq⟩
    · -- within the field
      cases ho : one utf8 rd fs p with
      | none => exact Or.inr rfl
      | some y =>
        obtain ⟨y, r⟩ := y
        have h1 := one_ext q ho
        rw [hq] at h1
        have h2 := hx []
        rw [List.append_nil, h1] at h2
        simp only [Option.some.injEq, Prod.mk.injEq, List.append_eq_nil_iff] at h2
        rw [h2.2.2, List.append_nil] at hq
        subst hq
        exact Or.inl ⟨1, _, _, ha, rfl, (List.append_nil _).symm⟩
    · subst hq
      rw [hx q]
      have hqb : q <+: b := (List.prefix_append_right_inj a).1 hp
      have hql : q.length ≤ n' := by
        have := List.length_pos_iff.2 hane
        rw [List.length_append] at hlen
        omega
      rcases cut_items H key hok hn items (put key fs m x) n' b q hb (fun y hy => hv y (by cases it <;> simp_all [knowns]))
          (fun y hy => hu y (by cases it <;> simp_all [unknowns])) hqb hql with ⟨i, hi⟩ | h
      · exact Or.inl ⟨i + 1, _, _, ha, hi, rfl⟩
      · exact Or.inr h

theorem fitsF_take {hk : M → Bytes → Prop} {ss : List SField} {m : MsgF M} (h : FitsF fm hk utf8 ss m) (i j : Nat) :
    FitsF fm hk utf8 ss ⟨m.known.take i, m.unknown.take j⟩ :=
  ⟨fun x hx => h.1 x (List.mem_of_mem_take hx), h.2.1.sublist (List.take_sublist _ _), fun u hu => h.2.2.1 u (List.mem_of_mem_take hu),
    fun x hx => h.2.2.2 x (List.mem_of_mem_take hx)⟩

theorem fitsV_typed {s : SField} {v : V M} (h : FitsV fm utf8 s v) : Typed fm utf8 s v := by
  cases v with
  | num n => exact ⟨h.1, h.2.1⟩
  | bytes b => exact ⟨h.1, h.2.1⟩
  | nums l => exact ⟨h.1, h.2.2⟩
  | msg m => exact h

/-- **C104.** A message of which only a part was written is refused, or the cut is between two of its fields and the fields before it
are read: some of the known ones, or all of them and some of the unknown ones. -/
theorem C104_cut {T : Table} {S : Schema} (hT : T.ok = true) (hS : T.isFor S) (utf8 : Bytes → Bool) (d ix : Nat) (m : Msg (d + 1)) (h : Fits S utf8 (d + 1) ix m) (p : Bytes)
    (hp : p <+: write T (d + 1) ix m) : read T utf8 (d + 1) ix p = none ∨
      ∃ i j, (j = 0 ∨ MsgF.known m = (MsgF.known m).take i) ∧ read T utf8 (d + 1) ix p = some (⟨(MsgF.known m).take i, (MsgF.unknown m).take j⟩ : MsgF (Msg d)) ∧
        Fits S utf8 (d + 1) ix (⟨(MsgF.known m).take i, (MsgF.unknown m).take j⟩ : MsgF (Msg d)) := by
  obtain ⟨hok, hn⟩ := fields_ok hT ix
  have hF : FitsF (Fits S utf8 d) (HasKey d) utf8 ((T.fields ix).map Field.sig) m := by rw [fields_for hS]; exact h
  have hi := writeF_items (enc := Enc S d) (fun ix m h => ⟨C103_size hT hS utf8 d ix m h, C103_conforming hT hS utf8 d ix m h⟩) hok hF
  rcases cut_items (utf8 := utf8) (fun ix m b h he => C103_any_encoding hT hS utf8 d ix m b h he) (keyOf d) hok hn _ ⟨[], []⟩ p.length _ p hi
      (by
        rw [knowns_plain]
        intro x hx s hs
        obtain ⟨s', hs', hv⟩ := hF.1 x hx
        rw [hs] at hs'
        cases hs'
        exact fitsV_typed hv)
      (by rw [unknowns_plain]; exact hF.2.2.1) hp (Nat.le_refl _) with ⟨i, hi⟩ | hnone
  · right
    refine ⟨i, i - (MsgF.known m).length, ?_, ?_⟩
    · by_cases hle : i ≤ (MsgF.known m).length
      · exact Or.inl (by omega)
      · exact Or.inr (List.take_of_length_le (by omega)).symm
    · rw [List.take_append, List.length_map, ← List.map_take, ← List.map_take] at hi
      have hfit := fitsF_take hF i (i - (MsgF.known m).length)
      have hf2 : Fits S utf8 (d + 1) ix (⟨(MsgF.known m).take i, (MsgF.unknown m).take (i - (MsgF.known m).length)⟩ : MsgF (Msg d)) := by
        rw [fields_for hS] at hfit
        exact hfit
      refine ⟨C103_any_encoding hT hS utf8 (d + 1) ix _ p hf2 ?_, hf2⟩
      have := plain_enc hfit hi
      rw [fields_for hS] at this
      exact this
  · exact Or.inl hnone

end Verif.Wire
