import Verif.Proto.WireLast
import Mathlib.Data.List.Forall2
/-
C103 between two versions of the protocol: a reader of the older one, and a reader of the newer one.
-/
namespace Verif.Wire

open Handshake (Bytes varint readVarint readField)

/-! ### What is asked -/

/-- `S'` is a later version of `S`: fields (and messages) were added, with numbers that were not in use.  `e ix i` is where the `i`-th
field of the `ix`-th message is in the later version.  The entries of maps keep their key. -/
structure Later (S S' : Schema) (e : Nat → Nat → Nat) : Prop where
  mono : ∀ ix i j, i < j → e ix i < e ix j
  old : ∀ ix i s, (S.fields ix)[i]? = some s → (S'.fields ix)[e ix i]? = some s
  new : ∀ ix k s', (S'.fields ix)[k]? = some s' →
    (∃ i s, (S.fields ix)[i]? = some s ∧ k = e ix i) ∨ ((∀ i, k ≠ e ix i ∨ (S.fields ix)[i]? = none) ∧ 1 ≤ s'.num ∧ ∀ s ∈ S.fields ix, s'.num ≠ s.num)
  entry : ∀ ix s jx, s ∈ S.fields ix → s.label = .map → s.kind = .msg jx → e jx 0 = 0 ∧ ∃ s0, (S.fields jx)[0]? = some s0

/-- The same value, messages in it as they are seen. -/
def SameV {M : Type} (rel : Nat → M → M → Prop) (s : SField) : V M → V M → Prop
  | .num a, .num b => a = b
  | .bytes a, .bytes b => a = b
  | .nums a, .nums b => a = b
  | .msg a, .msg b => ∃ ix, s.kind = .msg ix ∧ rel ix a b
  | _, _ => False

def SeenF {M : Type} (rel : Nat → M → M → Prop) (ss : List SField) (e : Nat → Nat) (m' m : MsgF M) : Prop :=
  m.known.Pairwise (fun x y => x.1 ≤ y.1) ∧
  (∀ j s, ss[j]? = some s → List.Forall₂ (fun x' x => SameV rel s x'.2 x.2) (m'.known.filter fun x => x.1 = e j) (m.known.filter fun x => x.1 = j)) ∧
  (∀ x ∈ m.known, ∃ s, ss[x.1]? = some s) ∧ m'.unknown.Sublist m.unknown

/-- `m` is the message `m'` of the later version as it is seen with the fields of the older one: every field of the older version has its
value, there are no others, and the unknown fields of `m'` are still there. -/
def Seen (S : Schema) (e : Nat → Nat → Nat) : (d : Nat) → Nat → Msg d → Msg d → Prop
  | 0, _, _, _ => False
  | d + 1, ix, m', m => SeenF (Seen S e d) (S.fields ix) (e ix) m' m

def KeptF {M : Type} (rel : Nat → M → M → Prop) (ss : List SField) (e : Nat → Nat) (m m' : MsgF M) : Prop :=
  m'.known.Pairwise (fun x y => x.1 ≤ y.1) ∧
  (∀ j s, ss[j]? = some s → List.Forall₂ (fun x x' => SameV rel s x.2 x'.2) (m.known.filter fun x => x.1 = j) (m'.known.filter fun x => x.1 = e j)) ∧
  (∀ x ∈ m'.known, ∃ j s, ss[j]? = some s ∧ x.1 = e j) ∧ m'.unknown = []

/-- `m'` is the message `m` of the older version in the later one: every field has its value, and there is nothing else. -/
def Kept (S : Schema) (e : Nat → Nat → Nat) : (d : Nat) → Nat → Msg d → Msg d → Prop
  | 0, _, _, _ => False
  | d + 1, ix, m, m' => KeptF (Kept S e d) (S.fields ix) (e ix) m m'

/-- No unknown fields on any level. -/
def Plain : (d : Nat) → Msg d → Prop
  | 0, _ => False
  | d + 1, m => MsgF.unknown m = [] ∧ ∀ x ∈ MsgF.known m, ∀ m2, x.2 = .msg m2 → Plain d m2

/-! ### A field of the later version is an unknown one -/

variable {M : Type} {fm : Nat → M → Prop} {utf8 : Bytes → Bool} {enc : Nat → M → Bytes → Prop} {rd : Nat → Bytes → Option M}

theorem wireType_lt (k : Kind) : wireType k < 8 := by cases k <;> simp [wireType]

theorem rawType_lt (u : Raw) : rawType u < 8 := by cases u <;> simp [rawType]

theorem raw_num {k : Kind} {n num : Nat} {t p : Bytes} (hr : inRange k n) (ht : IsVar (8 * num + wireType k) t) (hp : EncNum k n p) :
    ∃ u : Raw, EncRaw (num, u) (t ++ p) ∧ (match u with | .f64 n => n < 2 ^ 64 | .f32 n => n < 2 ^ 32 | _ => True) := by
  cases k with
  | f64 => exact ⟨.f64 n, ⟨t, p, rfl, ht, hp⟩, hr⟩
  | f32 => exact ⟨.f32 n, ⟨t, p, rfl, ht, hp⟩, hr⟩
  | u32 => exact ⟨.varint n, ⟨t, p, rfl, ht, hp⟩, trivial⟩
  | u64 => exact ⟨.varint n, ⟨t, p, rfl, ht, hp⟩, trivial⟩
  | i64 => exact ⟨.varint n, ⟨t, p, rfl, ht, hp⟩, trivial⟩
  | bool => exact ⟨.varint n, ⟨t, p, rfl, ht, hp⟩, trivial⟩
  | i32 => exact ⟨.varint _, ⟨t, p, rfl, ht, hp⟩, trivial⟩
  | enum => exact ⟨.varint _, ⟨t, p, rfl, ht, hp⟩, trivial⟩
  | str => exact hr.elim
  | bytes => exact hr.elim
  | msg _ => exact hr.elim

theorem raw_len {num : Nat} {b t p : Bytes} (ht : IsVar (8 * num + 2) t) (hp : Delimited b p) : EncRaw (num, .len b) (t ++ p) := ⟨t, p, rfl, ht, hp⟩

theorem encV_raw {s : SField} {v : V M} {bs : Bytes} (hv : Typed fm utf8 s v) (he : EncV enc s v bs) :
    ∃ u : Raw, EncRaw (s.num, u) bs ∧ (match u with | .f64 n => n < 2 ^ 64 | .f32 n => n < 2 ^ 32 | _ => True) := by
  obtain ⟨t, p, rfl, ⟨ht, hp⟩ | ⟨hl, ht, n, rfl, hp⟩⟩ := he
  · unfold tagOf at ht
    cases v with
    | num n =>
      rw [if_neg hv.1] at ht
      exact raw_num hv.2 ht hp.2
    | bytes b =>
      rw [if_neg hv.1] at ht
      have : wireType s.kind = 2 := by rcases hv.2 with h | ⟨h, _⟩ <;> rw [h] <;> rfl
      rw [this] at ht
      exact ⟨_, raw_len ht hp.2, trivial⟩
    | nums l =>
      rw [if_pos hv.1] at ht
      obtain ⟨_, b, _, hd⟩ := hp
      exact ⟨_, raw_len ht hd, trivial⟩
    | msg m =>
      rw [if_neg hv.1] at ht
      obtain ⟨_, ix, b, hk, _, hd⟩ := hp
      rw [hk] at ht
      exact ⟨_, raw_len ht hd, trivial⟩
  · exact raw_num (hv.2 n (by simp)) ht hp

theorem fitsU_new {ss : List SField} {num : Nat} {u : Raw} (h1 : 1 ≤ num) (hn : ∀ s ∈ ss, num ≠ s.num)
    (hu : match u with | .f64 n => n < 2 ^ 64 | .f32 n => n < 2 ^ 32 | _ => True) : FitsU ss (num, u) := by
  refine ⟨h1, fun s hs => ?_, ?_⟩
  · have := hn s hs
    have r := rawType_lt u
    have w := wireType_lt s.kind
    dsimp only
    constructor
    · unfold tagOf
      split <;> omega
    · intro _
      omega
  · cases u <;> exact hu

theorem fitsU_old {ss ss' : List SField} {u : Nat × Raw} (h : ∀ s ∈ ss, s ∈ ss') (hu : FitsU ss' u) : FitsU ss u :=
  ⟨hu.1, fun s hs => hu.2.1 s (h s hs), hu.2.2⟩

/-! ### If no field occurs twice, all count -/

theorem one_of_pairwise {α : Type} {R : α → α → Prop} : ∀ {l : List α}, l.Pairwise R → (∀ x ∈ l, ∀ y ∈ l, ¬ R x y) → l.getLast?.toList = l
  | [], _, _ => rfl
  | [a], _, _ => rfl
  | a :: b :: l, h, hn => absurd ((List.pairwise_cons.1 h).1 b (by simp)) (hn a (by simp) b (by simp))

theorem lastKeys_self {hk : M → Bytes → Prop} : ∀ {l : List (Nat × V M)}, l.Pairwise (fun x y => ¬ SameKey hk x y) → lastKeys hk l = l
  | [], _ => rfl
  | x :: l, h => by
    obtain ⟨h1, h2⟩ := List.pairwise_cons.1 h
    rw [lastKeys, if_neg, lastKeys_self h2]
    rintro ⟨y, hy, hs⟩
    exact h1 y hy hs

theorem lastOf_gather {hk : M → Bytes → Prop} (Hk : ∀ m b b', hk m b → hk m b' → b = b') {ss : List SField} {l : List (Nat × V M)}
    (hd : ∀ x ∈ l, ∀ s, ss[x.1]? = some s → s.label = .plain → ¬ Absent s x.2) (hc : l.Pairwise (Compat hk ss)) {j : Nat} {s : SField} (hj : ss[j]? = some s) :
    lastOf hk ss j l = gather ss j l := by
  have hfil : (l.filter fun x => x.1 = j).Pairwise (Compat hk ss) := hc.filter _
  have hmem : ∀ x ∈ l.filter (fun x => decide (x.1 = j)), x.1 = j := fun x hx => by simpa using (List.mem_filter.1 hx).2
  have hone : s.label ≠ .rep → s.label ≠ .packed → s.label ≠ .map → (l.filter fun x => x.1 = j).getLast?.toList = l.filter fun x => x.1 = j := by
    intro h1 h2 h3
    refine one_of_pairwise hfil fun x hx y hy hxy => ?_
    rcases hxy with ⟨h, _⟩ | ⟨_, s', hs', h⟩
    · exact h ((hmem x hx).trans (hmem y hy).symm)
    · rw [hmem x hx, hj] at hs'
      cases hs'
      rcases h with h | h | ⟨h, _⟩
      · exact h1 h
      · exact h2 h
      · exact h3 h
  have hnp : s.label ≠ .packed → gather ss j l = l.filter fun x => x.1 = j := by
    intro h
    unfold gather
    rw [if_neg]
    rintro ⟨s', hs', hl⟩
    rw [hj] at hs'
    cases hs'
    exact h hl
  unfold lastOf
  rw [hj]
  dsimp only
  cases hl : s.label with
  | plain =>
    dsimp only
    rw [hone (by rw [hl]; nofun) (by rw [hl]; nofun) (by rw [hl]; nofun), hnp (by rw [hl]; nofun), List.filter_eq_self]
    intro x hx
    have := hd x (List.mem_filter.1 hx).1 s (by rw [hmem x hx, hj]) hl
    simpa using this
  | opt => dsimp only; rw [hone (by rw [hl]; nofun) (by rw [hl]; nofun) (by rw [hl]; nofun), hnp (by rw [hl]; nofun)]
  | always => dsimp only; rw [hone (by rw [hl]; nofun) (by rw [hl]; nofun) (by rw [hl]; nofun), hnp (by rw [hl]; nofun)]
  | rep => dsimp only; rw [hnp (by rw [hl]; nofun)]
  | packed => rfl
  | map =>
    dsimp only
    rw [hnp (by rw [hl]; nofun), lastKeys_self]
    refine hfil.imp_of_mem ?_
    rintro x y hx hy hxy ⟨m, m', b, e1, e2, k1, k2⟩
    rcases hxy with ⟨h, _⟩ | ⟨_, s', hs', h⟩
    · exact h ((hmem x hx).trans (hmem y hy).symm)
    · rw [hmem x hx, hj] at hs'
      cases hs'
      rw [hl] at h
      rcases h with h | h | ⟨_, n, n', c, c', f1, f2, g1, g2, hne⟩
      · cases h
      · cases h
      · rw [e1] at f1
        rw [e2] at f2
        cases f1
        cases f2
        exact hne ((Hk _ _ _ g1 k1).trans (Hk _ _ _ k2 g2))
  | one g =>
    dsimp only
    rw [hnp (by rw [hl]; nofun), one_of_pairwise (R := Compat hk ss) (hc.filter _), List.filter_filter]
    · apply List.filter_congr
      intro x _
      by_cases hx : x.1 = j
      · simp [hx, hj, hl]
      · simp [hx]
    · intro x hx y hy hxy
      have hx := (List.mem_filter.1 hx).2
      have hy := (List.mem_filter.1 hy).2
      rw [decide_eq_true_eq] at hx hy
      obtain ⟨s1, h1, g1⟩ := hx
      obtain ⟨s2, h2, g2⟩ := hy
      rcases hxy with ⟨_, h⟩ | ⟨_, s3, h3, h⟩
      · exact h s1 s2 g h1 h2 g1 g2
      · rw [h1] at h3
        cases h3
        rw [g1] at h
        rcases h with h | h | ⟨h, _⟩ <;> cases h

/-! ### The items -/

section
variable {rel : Nat → M → M → Prop} {ss ss' : List SField} {e : Nat → Nat}

/-- An item of the later version, and as what the reader of the older one takes it. -/
inductive Taken (rel : Nat → M → M → Prop) (ss : List SField) (e : Nat → Nat) : Item M → Item M → Prop where
  | old (x' x : Nat × V M) (s : SField) (h : ss[x.1]? = some s) (hi : x'.1 = e x.1) (hv : SameV rel s x'.2 x.2) : Taken rel ss e (.inl x') (.inl x)
  | new (x' : Nat × V M) (u : Nat × Raw) (h : ∀ i, x'.1 ≠ e i ∨ ss[i]? = none) (hu : FitsU ss u) : Taken rel ss e (.inl x') (.inr u)
  | unknown (u : Nat × Raw) (hu : FitsU ss u) : Taken rel ss e (.inr u) (.inr u)

theorem taken_unknown {items' items : List (Item M)} (h : List.Forall₂ (Taken rel ss e) items' items) :
    (∀ u ∈ unknowns items, FitsU ss u) ∧ (unknowns items').Sublist (unknowns items) := by
  induction h with
  | nil => exact ⟨fun u hu => by simp [unknowns] at hu, List.Sublist.refl _⟩
  | @cons a b la lb hab _ ih =>
    cases hab with
    | old x' x s h1 hi hv => exact ih
    | new x' u h1 hu =>
      refine ⟨fun w hw => ?_, ih.2.cons u⟩
      have : unknowns (.inr u :: lb) = u :: unknowns lb := rfl
      rw [this] at hw
      rcases List.mem_cons.1 hw with rfl | hw
      · exact hu
      · exact ih.1 w hw
    | unknown u hu =>
      refine ⟨fun w hw => ?_, ih.2.cons_cons u⟩
      have : unknowns (.inr u :: lb) = u :: unknowns lb := rfl
      rw [this] at hw
      rcases List.mem_cons.1 hw with rfl | hw
      · exact hu
      · exact ih.1 w hw

/-- The fields that both know. -/
def Both (rel : Nat → M → M → Prop) (ss : List SField) (e : Nat → Nat) (x' x : Nat × V M) : Prop :=
  ∃ s, ss[x.1]? = some s ∧ x'.1 = e x.1 ∧ SameV rel s x'.2 x.2

theorem taken_known {items' items : List (Item M)} (h : List.Forall₂ (Taken rel ss e) items' items) :
    ∃ L', L'.Sublist (knowns items') ∧ List.Forall₂ (Both rel ss e) L' (knowns items) ∧
      ∀ j s, ss[j]? = some s → (knowns items').filter (fun x => x.1 = e j) = L'.filter fun x => x.1 = e j := by
  induction h with
  | nil => exact ⟨[], List.Sublist.refl _, .nil, fun _ _ _ => rfl⟩
  | @cons a b la lb hab _ ih =>
    obtain ⟨L', h1, h2, h3⟩ := ih
    cases hab with
    | old x' x s hs hi hv =>
      refine ⟨x' :: L', h1.cons_cons x', .cons ⟨s, hs, hi, hv⟩ h2, fun j s' hj => ?_⟩
      have : knowns (.inl x' :: la) = x' :: knowns la := rfl
      rw [this, List.filter_cons, List.filter_cons, h3 j s' hj]
    | new x' u hn hu =>
      refine ⟨L', h1.cons x', h2, fun j s' hj => ?_⟩
      have : knowns (.inl x' :: la) = x' :: knowns la := rfl
      rw [this, List.filter_cons_of_neg, h3 j s' hj]
      rcases hn j with h | h
      · simpa using h
      · rw [h] at hj; cases hj
    | unknown u hu => exact ⟨L', h1, h2, h3⟩

theorem both_filter (hinj : ∀ i j, e i = e j → i = j) {L' L : List (Nat × V M)} (h : List.Forall₂ (Both rel ss e) L' L) (j : Nat) {s : SField} (hj : ss[j]? = some s) :
    List.Forall₂ (fun x' x => SameV rel s x'.2 x.2) (L'.filter fun x => x.1 = e j) (L.filter fun x => x.1 = j) := by
  induction h with
  | nil => exact .nil
  | @cons x' x la lb hab _ ih =>
    obtain ⟨s', hs', hi, hv⟩ := hab
    by_cases hx : x.1 = j
    · rw [List.filter_cons_of_pos (by simp [hi, hx]), List.filter_cons_of_pos (by simp [hx])]
      rw [hx, hj] at hs'
      cases hs'
      exact .cons hv ih
    · rw [List.filter_cons_of_neg, List.filter_cons_of_neg (by simp [hx])]
      · exact ih
      · simp only [decide_eq_true_eq]
        intro h
        exact hx (hinj _ _ (hi ▸ h))

theorem both_pairwise {R' R : Nat × V M → Nat × V M → Prop} (hR : ∀ x' y' x y, Both rel ss e x' x → Both rel ss e y' y → R' x' y' → R x y)
    {L' L : List (Nat × V M)} (h : List.Forall₂ (Both rel ss e) L' L) (hp : L'.Pairwise R') : L.Pairwise R := by
  induction h with
  | nil => exact List.Pairwise.nil
  | @cons x' x la lb hab hl ih =>
    obtain ⟨h1, h2⟩ := List.pairwise_cons.1 hp
    refine List.pairwise_cons.2 ⟨fun y hy => ?_, ih h2⟩
    have : ∃ y' ∈ la, Both rel ss e y' y := by
      clear ih hp h1 h2
      induction hl with
      | nil => simp at hy
      | @cons a b la lb hab _ ih =>
        rcases List.mem_cons.1 hy with rfl | hy
        · exact ⟨a, by simp, hab⟩
        · obtain ⟨y', h, h'⟩ := ih hy
          exact ⟨y', by simp [h], h'⟩
    obtain ⟨y', hy', hb⟩ := this
    exact hR _ _ _ _ hab hb (h1 y' hy')

theorem both_mem {L' L : List (Nat × V M)} (h : List.Forall₂ (Both rel ss e) L' L) {x : Nat × V M} (hx : x ∈ L) : ∃ x' ∈ L', Both rel ss e x' x := by
  induction h with
  | nil => simp at hx
  | @cons a b la lb hab _ ih =>
    rcases List.mem_cons.1 hx with rfl | hx
    · exact ⟨a, by simp, hab⟩
    · obtain ⟨y', h, h'⟩ := ih hx
      exact ⟨y', by simp [h], h'⟩

theorem elems_same {s : SField} {l' l : List (Nat × V M)} (h : List.Forall₂ (fun x' x => SameV rel s x'.2 x.2) l' l) :
    (l'.flatMap fun x => elems x.2) = l.flatMap fun x => elems x.2 := by
  induction h with
  | nil => rfl
  | @cons x' x la lb hab _ ih =>
    rw [List.flatMap_cons, List.flatMap_cons, ih]
    congr 1
    revert hab
    cases x'.2 <;> cases x.2 <;> simp [SameV, elems]

theorem same_typed {s : SField} {v' v : V M} (hv : SameV rel s v' v) (ht : Typed fm utf8 s v') : Typed (fun _ _ => True) utf8 s v := by
  cases v' with
  | num a => cases v with
    | num b => cases hv; exact ht
    | _ => exact hv.elim
  | bytes a => cases v with
    | bytes b => cases hv; exact ht
    | _ => exact hv.elim
  | nums a => cases v with
    | nums b => cases hv; exact ht
    | _ => exact hv.elim
  | msg a => cases v with
    | msg b => obtain ⟨jx, hk, _⟩ := hv; exact ⟨ht.1, jx, hk, trivial⟩
    | _ => exact hv.elim

theorem same_absent {s : SField} {v' v : V M} (hl : s.label = .plain) (hv : SameV rel s v' v) (ht : FitsV fm utf8 s v') : ¬ Absent s v := by
  cases v with
  | num b => cases v' with
    | num a =>
      cases hv
      obtain ⟨h1, h2, h3⟩ := ht.2.2 hl
      rintro (h | ⟨h, h'⟩ | ⟨h, h'⟩)
      · exact h1 h
      · exact h2 h h'
      · exact h3 h h'
    | _ => exact hv.elim
  | bytes b => cases v' with
    | bytes a => cases hv; exact ht.2.2 hl
    | _ => exact hv.elim
  | _ => exact fun h => h

theorem encV_same {enc' : Nat → M → Bytes → Prop} (H : ∀ ix m' b, fm ix m' → enc' ix m' b → ∃ m, enc ix m b ∧ rel ix m' m) {s : SField} {v' : V M} {bs : Bytes}
    (hv : Typed fm utf8 s v') (he : EncV enc' s v' bs) : ∃ v, EncV enc s v bs ∧ SameV rel s v' v := by
  obtain ⟨t, p, rfl, ⟨ht, hp⟩ | ⟨hl, ht, n, rfl, hp⟩⟩ := he
  · cases v' with
    | num n => exact ⟨.num n, ⟨t, p, rfl, Or.inl ⟨ht, hp⟩⟩, rfl⟩
    | bytes n => exact ⟨.bytes n, ⟨t, p, rfl, Or.inl ⟨ht, hp⟩⟩, rfl⟩
    | nums n => exact ⟨.nums n, ⟨t, p, rfl, Or.inl ⟨ht, hp⟩⟩, rfl⟩
    | msg m' =>
      obtain ⟨hl, ix, b, hk, he, hd⟩ := hp
      obtain ⟨_, ix', hk', hm⟩ := hv
      rw [hk] at hk'
      cases hk'
      obtain ⟨m, h1, h2⟩ := H ix m' b hm he
      exact ⟨.msg m, ⟨t, p, rfl, Or.inl ⟨ht, hl, ix, b, hk, h1, hd⟩⟩, ix, hk, h2⟩
  · exact ⟨.nums [n], ⟨t, p, rfl, Or.inr ⟨hl, ht, n, rfl, hp⟩⟩, rfl⟩

theorem taken_exists {enc' : Nat → M → Bytes → Prop} (H : ∀ ix m' b, fm ix m' → enc' ix m' b → ∃ m, enc ix m b ∧ rel ix m' m)
    (hold : ∀ i s, ss[i]? = some s → ss'[e i]? = some s)
    (hnew : ∀ k s', ss'[k]? = some s' → (∃ i s, ss[i]? = some s ∧ k = e i) ∨ ((∀ i, k ≠ e i ∨ ss[i]? = none) ∧ 1 ≤ s'.num ∧ ∀ s ∈ ss, s'.num ≠ s.num)) :
    ∀ (items' : List (Item M)) (bs : Bytes), EncItems enc' ss' items' bs → (∀ x ∈ knowns items', ∀ s, ss'[x.1]? = some s → Typed fm utf8 s x.2) →
      (∀ u ∈ unknowns items', FitsU ss' u) → ∃ items, List.Forall₂ (Taken rel ss e) items' items ∧ EncItems enc ss items bs
  | [], bs, he, _, _ => ⟨[], .nil, he⟩
  | .inr u :: items', bs, he, hv, hu => by
    obtain ⟨a, b, h1, h2, rfl⟩ := he
    have huu : unknowns (.inr u :: items') = u :: unknowns items' := rfl
    rw [huu] at hu
    obtain ⟨items, g1, g2⟩ := taken_exists H hold hnew items' b h2 hv fun w hw => hu w (by simp [hw])
    have hsub : ∀ s ∈ ss, s ∈ ss' := by
      intro s hs
      obtain ⟨i, hi⟩ := List.mem_iff_getElem?.1 hs
      exact List.mem_of_getElem? (hold i s hi)
    exact ⟨.inr u :: items, .cons (.unknown u (fitsU_old hsub (hu u (by simp)))) g1, a, b, h1, g2, rfl⟩
  | .inl x' :: items', bs, he, hv, hu => by
    obtain ⟨a, b, ⟨s', hs', h1⟩, h2, rfl⟩ := he
    have hkk : knowns (.inl x' :: items') = x' :: knowns items' := rfl
    rw [hkk] at hv
    obtain ⟨items, g1, g2⟩ := taken_exists H hold hnew items' b h2 (fun x hx => hv x (by simp [hx])) hu
    have ht := hv x' (by simp) s' hs'
    rcases hnew x'.1 s' hs' with ⟨i, s, hi, hx⟩ | ⟨hx, h3, h4⟩
    · have : s = s' := by
        have := hold i s hi
        rw [← hx, hs'] at this
        exact (Option.some.inj this).symm
      subst this
      obtain ⟨v, k1, k2⟩ := encV_same H ht h1
      exact ⟨.inl (i, v) :: items, .cons (.old x' (i, v) s hi hx k2) g1, a, b, ⟨s, hi, k1⟩, g2, rfl⟩
    · obtain ⟨u, k1, k2⟩ := encV_raw ht h1
      exact ⟨.inr (s'.num, u) :: items, .cons (.new x' _ hx (fitsU_new h3 h4 k2)) g1, a, b, k1, g2, rfl⟩

end

theorem hasKey_unique (d : Nat) (m : Msg d) (b b' : Bytes) (h : HasKey d m b) (h' : HasKey d m b') : b = b' := by
  have h1 := key_of d m b h
  rw [key_of d m b' h'] at h1
  exact (Option.some.inj h1).symm

/-- A key is seen. -/
theorem seen_key {S : Schema} {e : Nat → Nat → Nat} {d ix : Nat} {m' m : Msg d} {b : Bytes} (h0 : e ix 0 = 0) {s : SField} (hs : (S.fields ix)[0]? = some s)
    (h : Seen S e d ix m' m) (hk : HasKey d m' b) : HasKey d m b := by
  cases d with
  | zero => exact h.elim
  | succ d =>
    obtain ⟨rest, hm'⟩ := hk
    obtain ⟨h1, h2, _, _⟩ := h
    have := h2 0 s hs
    rw [h0, hm', List.filter_cons_of_pos (by simp)] at this
    cases hf : (MsgF.known m).filter (fun x => decide (x.1 = 0)) with
    | nil => rw [hf] at this; cases this
    | cons x r =>
      rw [hf] at this
      cases this with
      | cons hv _ =>
      have hx : x ∈ (MsgF.known m).filter (fun x => decide (x.1 = 0)) := by rw [hf]; simp
      have hx0 : x.1 = 0 := by simpa using (List.mem_filter.1 hx).2
      have hxb : x.2 = .bytes b := by
        cases hx2 : x.2 with
        | bytes c => rw [hx2] at hv; exact congrArg V.bytes hv.symm
        | _ => rw [hx2] at hv; exact hv.elim
      cases hkn : MsgF.known m with
      | nil => rw [hkn] at hf; cases hf
      | cons y l =>
        refine ⟨l, ?_⟩
        rw [hkn] at h1 hf hx
        have hy : y.1 = 0 := by
          rcases List.mem_cons.1 (List.mem_filter.1 hx).1 with h | h
          · rw [← h]; exact hx0
          · have := (List.pairwise_cons.1 h1).1 x h
            omega
        rw [List.filter_cons_of_pos (by simpa using hy)] at hf
        have : y = x := (List.cons.inj hf).1
        rw [hkn, this, ← hx0, ← hxb]

/-- **C103.** A reader of an older version reads every encoding of a message of a later one: the fields that it knows have their values,
on all levels, and the others are kept as unknown fields. -/
theorem C103_newer {T : Table} {S S' : Schema} {e : Nat → Nat → Nat} (hT : T.ok = true) (hS : T.isFor S) (hL : Later S S' e) (utf8 : Bytes → Bool)
    (d ix : Nat) (m' : Msg d) (bs : Bytes) (h : Fits S' utf8 d ix m') (he : Enc S' d ix m' bs) : ∃ m, read T utf8 d ix bs = some m ∧ Seen S e d ix m' m := by
  induction d generalizing ix bs with
  | zero => exact h.elim
  | succ d ih =>
    obtain ⟨hok, hn⟩ := fields_ok hT ix
    have hinj : ∀ i j, e ix i = e ix j → i = j := by
      intro i j hij
      rcases Nat.lt_trichotomy i j with h | h | h
      · exact absurd hij (Nat.ne_of_lt (hL.mono ix i j h))
      · exact h
      · exact absurd hij.symm (Nat.ne_of_lt (hL.mono ix j i h))
    have hF : FitsF (Fits S' utf8 d) (HasKey d) utf8 (S'.fields ix) m' := h
    obtain ⟨items', henc, hc, hg, hu⟩ := he
    have hpart := items_part hF henc hg
    obtain ⟨items, htk, henc2⟩ := taken_exists (fm := Fits S' utf8 d) (utf8 := utf8) (enc := fun ix m b => read T utf8 d ix b = some m) (rel := Seen S e d)
      (fun ix m' b h1 h2 => ih ix m' b h1 h2) (hL.old ix) (hL.new ix) items' bs henc (fun x hx s hs => part_typed (hpart x hx s hs))
      (fun u hx => hF.2.2.1 u (hu ▸ hx))
    obtain ⟨L', hsub, hboth, hfil⟩ := taken_known htk
    obtain ⟨hfu, hus⟩ := taken_unknown htk
    -- a field of the later version that is not packed is one of the message
    have hknown : ∀ x' ∈ knowns items', ∀ s, (S'.fields ix)[x'.1]? = some s → s.label ≠ .packed → x' ∈ MsgF.known m' := by
      intro x' hx s hs hl
      have : x' ∈ gather (S'.fields ix) x'.1 (knowns items') := by
        unfold gather
        rw [if_neg]
        · simp [hx]
        · rintro ⟨s2, h2, h3⟩
          rw [hs] at h2
          cases h2
          exact hl h3
      rw [hg] at this
      exact (List.mem_filter.1 this).1
    have hkey : ∀ x' x s, Both (Seen S e d) (S.fields ix) (e ix) x' x → (S.fields ix)[x.1]? = some s → s.label = .map →
        ∀ m2 b, x'.2 = .msg m2 → HasKey d m2 b → ∃ m, x.2 = .msg m ∧ HasKey d m b := by
      rintro x' x s ⟨s2, hs2, hi, hv⟩ hs hl m2 b hx hb
      rw [hs] at hs2
      cases hs2
      rw [hx] at hv
      cases hx2 : x.2 with
      | msg m =>
        rw [hx2] at hv
        obtain ⟨jx, hk, hseen⟩ := hv
        obtain ⟨h0, s0, hs0⟩ := hL.entry ix s jx (List.mem_of_getElem? hs) hl hk
        exact ⟨m, rfl, seen_key h0 hs0 hseen hb⟩
      | _ => rw [hx2] at hv; exact hv.elim
    have htyped : ∀ x ∈ knowns items, ∀ s, (S.fields ix)[x.1]? = some s →
        Typed (fun _ _ => True) utf8 s x.2 ∧ (s.label = .map → ∃ m b, x.2 = .msg m ∧ HasKey d m b) := by
      intro x hx s hs
      obtain ⟨x', hx', hb⟩ := both_mem hboth hx
      have hb' := hb
      obtain ⟨s2, hs2, hi, hv⟩ := hb
      rw [hs] at hs2
      cases hs2
      have hs' : (S'.fields ix)[x'.1]? = some s := by rw [hi]; exact hL.old ix _ _ hs
      have ht := part_typed (hpart x' (hsub.subset hx') s hs')
      refine ⟨?_, fun hl => ?_⟩
      · exact same_typed hv ht
      · obtain ⟨m2, b, h1, h2⟩ := hF.2.2.2 x' (hknown x' (hsub.subset hx') s hs' (by rw [hl]; nofun)) s hs' hl
        obtain ⟨m, h3, h4⟩ := hkey x' x s hb' hs hl m2 b h1 h2
        exact ⟨m, b, h3, h4⟩
    have hcompat : (knowns items).Pairwise (Compat (HasKey d) (S.fields ix)) := by
      refine both_pairwise ?_ hboth (hc.sublist hsub)
      rintro x' y' x y hbx hby hxy
      obtain ⟨sx, hsx, hix, hvx⟩ := hbx
      obtain ⟨sy, hsy, hiy, hvy⟩ := hby
      rcases hxy with ⟨h1, h2⟩ | ⟨h1, s, hs, h2⟩
      · refine Or.inl ⟨fun h => h1 (by rw [hix, hiy, h]), fun s s' g k1 k2 => ?_⟩
        exact h2 s s' g (by rw [hix]; exact hL.old ix _ _ k1) (by rw [hiy]; exact hL.old ix _ _ k2)
      · have hxy : x.1 = y.1 := hinj _ _ (by rw [← hix, ← hiy, h1])
        have : s = sx := by
          have := hL.old ix _ _ hsx
          rw [← hix, hs] at this
          exact Option.some.inj this
        subst this
        refine Or.inr ⟨hxy, s, hsx, ?_⟩
        rcases h2 with h2 | h2 | ⟨hl, m, n, b, c, e1, e2, k1, k2, hbc⟩
        · exact Or.inl h2
        · exact Or.inr (Or.inl h2)
        · obtain ⟨m2, e3, k3⟩ := hkey x' x s ⟨s, hsx, hix, hvx⟩ hsx hl m b e1 k1
          obtain ⟨n2, e4, k4⟩ := hkey y' y s ⟨sy, hsy, hiy, hvy⟩ (hxy ▸ hsx) hl n c e2 k2
          exact Or.inr (Or.inr ⟨hl, m2, n2, b, c, e3, e4, k3, k4, hbc⟩)
    have habsent : ∀ x ∈ knowns items, ∀ s, (S.fields ix)[x.1]? = some s → s.label = .plain → ¬ Absent s x.2 := by
      intro x hx s hs hl
      obtain ⟨x', hx', s2, hs2, hi, hv⟩ := both_mem hboth hx
      rw [hs] at hs2
      cases hs2
      have hs' : (S'.fields ix)[x'.1]? = some s := by rw [hi]; exact hL.old ix _ _ hs
      obtain ⟨s3, hs3, hfit⟩ := hF.1 x' (hknown x' (hsub.subset hx') s hs' (by rw [hl]; nofun))
      rw [hs'] at hs3
      cases hs3
      exact same_absent hl hv hfit
    rw [← fields_for hS] at henc2 hfu htyped
    have hread := loop_absorbs (fm := fun _ _ => True) (enc := fun ix m b => read T utf8 d ix b = some m) (rd := read T utf8 d) (utf8 := utf8)
      (fun ix m b _ h => h) (keyOf d) hok hn items [] [] bs.length bs henc2 (fun x hx s hs => (htyped x hx s hs).1) hfu (Nat.le_refl _)
    obtain ⟨h1, h2⟩ := absorbs_last (key := keyOf d) (key_of d) hok (knowns items) [] [] htyped (fun x hx => by
      obtain ⟨s, hs⟩ := encItems_mem henc2 x hx
      rw [List.getElem?_map] at hs
      cases hf : (T.fields ix)[x.1]? with
      | none => rw [hf] at hs; cases hs
      | some f => exact ⟨f, rfl⟩) List.Pairwise.nil (fun j => by
        unfold lastOf gather
        split
        · rfl
        · split <;> simp [at', lastKeys])
    rw [fields_for hS, List.nil_append] at h2
    refine ⟨_, hread, h1, fun j s hj => ?_, fun x hx => ?_, ?_⟩
    · have e1 := h2 j
      rw [lastOf_gather (hasKey_unique d) habsent hcompat hj] at e1
      have e2 : (MsgF.known m').filter (fun x => x.1 = e ix j) = gather (S'.fields ix) (e ix j) (knowns items') := (hg _).symm
      have hj' := hL.old ix j s hj
      have hfl := both_filter hinj hboth j hj
      rw [← hfil j s hj] at hfl
      show List.Forall₂ _ ((MsgF.known m').filter (fun x => x.1 = e ix j)) (at' j _)
      rw [e1, e2]
      by_cases hl : s.label = .packed
      · rw [gather_packed ⟨s, hj', hl⟩, gather_packed ⟨s, hj, hl⟩]
        have : sofar (e ix j) (knowns items') = sofar j (knowns items) := elems_same hfl
        rw [this]
        split
        · exact .nil
        · exact .cons rfl .nil
      · have n1 : ¬ ∃ s, (S'.fields ix)[e ix j]? = some s ∧ s.label = .packed := by
          rintro ⟨s2, h3, h4⟩
          rw [hj'] at h3
          cases h3
          exact hl h4
        have n2 : ¬ ∃ s, (S.fields ix)[j]? = some s ∧ s.label = .packed := by
          rintro ⟨s2, h3, h4⟩
          rw [hj] at h3
          cases h3
          exact hl h4
        unfold gather
        rw [if_neg n1, if_neg n2]
        exact hfl
    · have hx' : x ∈ at' x.1 (absorbs (keyOf d) (T.fields ix) (knowns items) []) := by
        have : x ∈ absorbs (keyOf d) (T.fields ix) (knowns items) [] := hx
        simp [at', this]
      rw [h2] at hx'
      unfold lastOf at hx'
      cases hs : (S.fields ix)[x.1]? with
      | none => rw [hs] at hx'; cases hx'
      | some s => exact ⟨s, rfl⟩
    · show (MsgF.unknown m').Sublist ([] ++ unknowns items)
      rw [List.nil_append, ← hu]
      exact hus

/-! ### The other direction -/

section
variable {rel : Nat → M → M → Prop} {ss ss' : List SField} {e : Nat → Nat}

/-- Field by field, at its new place. -/
def Moved (rel : Nat → M → M → Prop) (ss : List SField) (e : Nat → Nat) (x x' : Nat × V M) : Prop :=
  ∃ s, ss[x.1]? = some s ∧ x'.1 = e x.1 ∧ SameV rel s x.2 x'.2

theorem moved_exists {enc' : Nat → M → Bytes → Prop} (H : ∀ ix m b, fm ix m → enc ix m b → ∃ m', enc' ix m' b ∧ rel ix m m')
    (hold : ∀ i s, ss[i]? = some s → ss'[e i]? = some s) :
    ∀ (items : List (Item M)) (bs : Bytes), EncItems enc ss items bs → (∀ x ∈ knowns items, ∀ s, ss[x.1]? = some s → Typed fm utf8 s x.2) →
      unknowns items = [] → ∃ items', List.Forall₂ (Moved rel ss e) (knowns items) (knowns items') ∧ EncItems enc' ss' items' bs ∧ unknowns items' = []
  | [], bs, he, _, _ => ⟨[], .nil, he, rfl⟩
  | .inr u :: items, bs, _, _, hu => by
    have huu : unknowns (.inr u :: items) = u :: unknowns items := rfl
    rw [huu] at hu
    cases hu
  | .inl x :: items, bs, he, hv, hu => by
    obtain ⟨a, b, ⟨s, hs, h1⟩, h2, rfl⟩ := he
    have hkk : knowns (.inl x :: items) = x :: knowns items := rfl
    rw [hkk] at hv ⊢
    obtain ⟨items', g1, g2, g3⟩ := moved_exists H hold items b h2 (fun x hx => hv x (by simp [hx])) hu
    obtain ⟨v, k1, k2⟩ := encV_same H (hv x (by simp) s hs) h1
    exact ⟨.inl (e x.1, v) :: items', .cons ⟨s, hs, rfl, k2⟩ g1, ⟨a, b, ⟨s, hold _ _ hs, k1⟩, g2, rfl⟩, g3⟩

theorem moved_pairwise {R R' : Nat × V M → Nat × V M → Prop} (hR : ∀ x y x' y', Moved rel ss e x x' → Moved rel ss e y y' → R x y → R' x' y')
    {L L' : List (Nat × V M)} (h : List.Forall₂ (Moved rel ss e) L L') (hp : L.Pairwise R) : L'.Pairwise R' := by
  induction h with
  | nil => exact List.Pairwise.nil
  | @cons x x' la lb hab hl ih =>
    obtain ⟨h1, h2⟩ := List.pairwise_cons.1 hp
    refine List.pairwise_cons.2 ⟨fun y hy => ?_, ih h2⟩
    have : ∃ y' ∈ la, Moved rel ss e y' y := by
      clear ih hp h1 h2
      induction hl with
      | nil => simp at hy
      | @cons a b la lb hab _ ih =>
        rcases List.mem_cons.1 hy with rfl | hy
        · exact ⟨a, by simp, hab⟩
        · obtain ⟨y', h, h'⟩ := ih hy
          exact ⟨y', by simp [h], h'⟩
    obtain ⟨y', hy', hb⟩ := this
    exact hR _ _ _ _ hab hb (h1 y' hy')

theorem moved_mem {L L' : List (Nat × V M)} (h : List.Forall₂ (Moved rel ss e) L L') {x' : Nat × V M} (hx : x' ∈ L') : ∃ x ∈ L, Moved rel ss e x x' := by
  induction h with
  | nil => simp at hx
  | @cons a b la lb hab _ ih =>
    rcases List.mem_cons.1 hx with rfl | hx
    · exact ⟨a, by simp, hab⟩
    · obtain ⟨y', h, h'⟩ := ih hx
      exact ⟨y', by simp [h], h'⟩

theorem moved_filter (hinj : ∀ i j, e i = e j → i = j) {L L' : List (Nat × V M)} (h : List.Forall₂ (Moved rel ss e) L L') (j : Nat) {s : SField} (hj : ss[j]? = some s) :
    List.Forall₂ (fun x x' => SameV rel s x.2 x'.2) (L.filter fun x => x.1 = j) (L'.filter fun x => x.1 = e j) := by
  induction h with
  | nil => exact .nil
  | @cons x x' la lb hab _ ih =>
    obtain ⟨s', hs', hi, hv⟩ := hab
    by_cases hx : x.1 = j
    · rw [List.filter_cons_of_pos (by simp [hx]), List.filter_cons_of_pos (by simp [hi, hx])]
      rw [hx, hj] at hs'
      cases hs'
      exact .cons hv ih
    · rw [List.filter_cons_of_neg (by simp [hx]), List.filter_cons_of_neg]
      · exact ih
      · simp only [decide_eq_true_eq]
        intro h
        exact hx (hinj _ _ (hi ▸ h))

end

theorem kept_key {S : Schema} {e : Nat → Nat → Nat} {d ix : Nat} {m m' : Msg d} {b : Bytes} (h0 : e ix 0 = 0) {s : SField} (hs : (S.fields ix)[0]? = some s)
    (h : Kept S e d ix m m') (hk : HasKey d m b) : HasKey d m' b := by
  cases d with
  | zero => exact h.elim
  | succ d =>
    obtain ⟨rest, hm⟩ := hk
    obtain ⟨h1, h2, _, _⟩ := h
    have := h2 0 s hs
    rw [h0, hm, List.filter_cons_of_pos (by simp)] at this
    cases hf : (MsgF.known m').filter (fun x => decide (x.1 = 0)) with
    | nil => rw [hf] at this; cases this
    | cons x r =>
      rw [hf] at this
      cases this with
      | cons hv _ =>
      have hx : x ∈ (MsgF.known m').filter (fun x => decide (x.1 = 0)) := by rw [hf]; simp
      have hx0 : x.1 = 0 := by simpa using (List.mem_filter.1 hx).2
      have hxb : x.2 = .bytes b := by
        cases hx2 : x.2 with
        | bytes c => rw [hx2] at hv; exact congrArg V.bytes hv.symm
        | _ => rw [hx2] at hv; exact hv.elim
      cases hkn : MsgF.known m' with
      | nil => rw [hkn] at hf; cases hf
      | cons y l =>
        refine ⟨l, ?_⟩
        rw [hkn] at h1 hf hx
        have hy : y.1 = 0 := by
          rcases List.mem_cons.1 (List.mem_filter.1 hx).1 with h | h
          · rw [← h]; exact hx0
          · have := (List.pairwise_cons.1 h1).1 x h
            omega
        rw [List.filter_cons_of_pos (by simpa using hy)] at hf
        have : y = x := (List.cons.inj hf).1
        rw [hkn, this, ← hx0, ← hxb]

/-- **C103.** A reader of a later version reads every encoding of a message of an older one (without unknown fields): all fields have their
values, on all levels, and no other field is set. -/
theorem C103_older {T' : Table} {S S' : Schema} {e : Nat → Nat → Nat} (hT : T'.ok = true) (hS : T'.isFor S') (hL : Later S S' e) (utf8 : Bytes → Bool)
    (d ix : Nat) (m : Msg d) (bs : Bytes) (h : Fits S utf8 d ix m) (hpl : Plain d m) (he : Enc S d ix m bs) :
    ∃ m', read T' utf8 d ix bs = some m' ∧ Kept S e d ix m m' := by
  induction d generalizing ix bs with
  | zero => exact h.elim
  | succ d ih =>
    obtain ⟨hok, hn⟩ := fields_ok hT ix
    have hinj : ∀ i j, e ix i = e ix j → i = j := by
      intro i j hij
      rcases Nat.lt_trichotomy i j with h | h | h
      · exact absurd hij (Nat.ne_of_lt (hL.mono ix i j h))
      · exact h
      · exact absurd hij.symm (Nat.ne_of_lt (hL.mono ix j i h))
    have hF : FitsF (Fits S utf8 d) (HasKey d) utf8 (S.fields ix) m := h
    obtain ⟨items, henc, hc, hg, hu⟩ := he
    have hpart := items_part hF henc hg
    have hknown : ∀ x ∈ knowns items, ∀ s, (S.fields ix)[x.1]? = some s → s.label ≠ .packed → x ∈ MsgF.known m := by
      intro x hx s hs hl
      have : x ∈ gather (S.fields ix) x.1 (knowns items) := by
        unfold gather
        rw [if_neg]
        · simp [hx]
        · rintro ⟨s2, h2, h3⟩
          rw [hs] at h2
          cases h2
          exact hl h3
      rw [hg] at this
      exact (List.mem_filter.1 this).1
    have htp : ∀ x ∈ knowns items, ∀ s, (S.fields ix)[x.1]? = some s → Typed (fun ix m => Fits S utf8 d ix m ∧ Plain d m) utf8 s x.2 := by
      intro x hx s hs
      have ht := part_typed (hpart x hx s hs)
      cases hx2 : x.2 with
      | num n => rw [hx2] at ht; exact ht
      | bytes n => rw [hx2] at ht; exact ht
      | nums n => rw [hx2] at ht; exact ht
      | msg m2 =>
        rw [hx2] at ht
        obtain ⟨h1, jx, h2, h3⟩ := ht
        exact ⟨h1, jx, h2, h3, hpl.2 x (hknown x hx s hs h1) m2 hx2⟩
    have hu0 : unknowns items = [] := hu.trans hpl.1
    obtain ⟨items', hmv, henc2, hu'⟩ := moved_exists (fm := fun ix m => Fits S utf8 d ix m ∧ Plain d m) (utf8 := utf8) (enc' := fun ix m b => read T' utf8 d ix b = some m)
      (rel := Kept S e d) (fun ix m b h1 h2 => ih ix m b h1.1 h1.2 h2) (hL.old ix) items bs henc htp hu0
    have hkey : ∀ x x' s, Moved (Kept S e d) (S.fields ix) (e ix) x x' → (S.fields ix)[x.1]? = some s → s.label = .map →
        ∀ m2 b, x.2 = .msg m2 → HasKey d m2 b → ∃ m, x'.2 = .msg m ∧ HasKey d m b := by
      rintro x x' s ⟨s2, hs2, hi, hv⟩ hs hl m2 b hx hb
      rw [hs] at hs2
      cases hs2
      rw [hx] at hv
      cases hx2 : x'.2 with
      | msg m =>
        rw [hx2] at hv
        obtain ⟨jx, hk, hseen⟩ := hv
        obtain ⟨h0, s0, hs0⟩ := hL.entry ix s jx (List.mem_of_getElem? hs) hl hk
        exact ⟨m, rfl, kept_key h0 hs0 hseen hb⟩
      | _ => rw [hx2] at hv; exact hv.elim
    have hsame : ∀ {i : Nat} {s s' : SField}, (S.fields ix)[i]? = some s → (S'.fields ix)[e ix i]? = some s' → s' = s := by
      intro i s s' h1 h2
      rw [hL.old ix i s h1] at h2
      exact (Option.some.inj h2).symm
    have htyped : ∀ x' ∈ knowns items', ∀ s, (S'.fields ix)[x'.1]? = some s →
        Typed (fun _ _ => True) utf8 s x'.2 ∧ (s.label = .map → ∃ m b, x'.2 = .msg m ∧ HasKey d m b) := by
      intro x' hx' s hs'
      obtain ⟨x, hx, hb⟩ := moved_mem hmv hx'
      have hb' := hb
      obtain ⟨s2, hs, hi, hv⟩ := hb
      rw [hi] at hs'
      have := hsame hs hs'
      subst this
      refine ⟨same_typed hv (part_typed (hpart x hx s hs)), fun hl => ?_⟩
      obtain ⟨m2, b, h1, h2⟩ := hF.2.2.2 x (hknown x hx s hs (by rw [hl]; nofun)) s hs hl
      obtain ⟨m, h3, h4⟩ := hkey x x' s hb' hs hl m2 b h1 h2
      exact ⟨m, b, h3, h4⟩
    have hcompat : (knowns items').Pairwise (Compat (HasKey d) (S'.fields ix)) := by
      refine moved_pairwise ?_ hmv hc
      rintro x y x' y' hbx hby hxy
      obtain ⟨sx, hsx, hix, hvx⟩ := hbx
      obtain ⟨sy, hsy, hiy, hvy⟩ := hby
      rcases hxy with ⟨h1, h2⟩ | ⟨h1, s, hs, h2⟩
      · refine Or.inl ⟨fun h => h1 (hinj _ _ (by rw [← hix, ← hiy, h])), fun s s' g k1 k2 => ?_⟩
        rw [hix] at k1
        rw [hiy] at k2
        have e1 := hsame hsx k1
        have e2 := hsame hsy k2
        subst e1
        subst e2
        exact h2 _ _ g hsx hsy
      · rw [hsx] at hs
        cases hs
        refine Or.inr ⟨by rw [hix, hiy, h1], sx, by rw [hix]; exact hL.old ix _ _ hsx, ?_⟩
        rcases h2 with h2 | h2 | ⟨hl, m, n, b, c, e1, e2, k1, k2, hbc⟩
        · exact Or.inl h2
        · exact Or.inr (Or.inl h2)
        · obtain ⟨m2, e3, k3⟩ := hkey x x' sx ⟨sx, hsx, hix, hvx⟩ hsx hl m b e1 k1
          obtain ⟨n2, e4, k4⟩ := hkey y y' sx ⟨sy, hsy, hiy, hvy⟩ (h1 ▸ hsx) hl n c e2 k2
          exact Or.inr (Or.inr ⟨hl, m2, n2, b, c, e3, e4, k3, k4, hbc⟩)
    have habsent : ∀ x' ∈ knowns items', ∀ s, (S'.fields ix)[x'.1]? = some s → s.label = .plain → ¬ Absent s x'.2 := by
      intro x' hx' s hs' hl
      obtain ⟨x, hx, s2, hs, hi, hv⟩ := moved_mem hmv hx'
      rw [hi] at hs'
      have := hsame hs hs'
      subst this
      obtain ⟨s3, hs3, hfit⟩ := hF.1 x (hknown x hx s hs (by rw [hl]; nofun))
      rw [hs] at hs3
      cases hs3
      exact same_absent hl hv hfit
    rw [← fields_for hS] at henc2 htyped
    have hread := loop_absorbs (fm := fun _ _ => True) (enc := fun ix m b => read T' utf8 d ix b = some m) (rd := read T' utf8 d) (utf8 := utf8)
      (fun ix m b _ h => h) (keyOf d) hok hn items' [] [] bs.length bs henc2 (fun x hx s hs => (htyped x hx s hs).1) (by rw [hu']; nofun) (Nat.le_refl _)
    obtain ⟨h1, h2⟩ := absorbs_last (key := keyOf d) (key_of d) hok (knowns items') [] [] htyped (fun x hx => by
      obtain ⟨s, hs⟩ := encItems_mem henc2 x hx
      rw [List.getElem?_map] at hs
      cases hf : (T'.fields ix)[x.1]? with
      | none => rw [hf] at hs; cases hs
      | some f => exact ⟨f, rfl⟩) List.Pairwise.nil (fun j => by
        unfold lastOf gather
        split
        · rfl
        · split <;> simp [at', lastKeys])
    rw [fields_for hS, List.nil_append] at h2
    refine ⟨_, hread, h1, fun j s hj => ?_, fun x hx => ?_, by show [] ++ unknowns items' = []; rw [hu']; rfl⟩
    · have hj' := hL.old ix j s hj
      have e1 := h2 (e ix j)
      rw [lastOf_gather (hasKey_unique d) habsent hcompat hj'] at e1
      have e2 : (MsgF.known m).filter (fun x => x.1 = j) = gather (S.fields ix) j (knowns items) := (hg _).symm
      have hfl := moved_filter hinj hmv j hj
      show List.Forall₂ _ ((MsgF.known m).filter (fun x => x.1 = j)) (at' (e ix j) _)
      rw [e1, e2]
      by_cases hl : s.label = .packed
      · rw [gather_packed ⟨s, hj', hl⟩, gather_packed ⟨s, hj, hl⟩]
        have : sofar j (knowns items) = sofar (e ix j) (knowns items') := elems_same hfl
        rw [this]
        split
        · exact .nil
        · exact .cons rfl .nil
      · have n1 : ¬ ∃ s, (S'.fields ix)[e ix j]? = some s ∧ s.label = .packed := by
          rintro ⟨s2, h3, h4⟩
          rw [hj'] at h3
          cases h3
          exact hl h4
        have n2 : ¬ ∃ s, (S.fields ix)[j]? = some s ∧ s.label = .packed := by
          rintro ⟨s2, h3, h4⟩
          rw [hj] at h3
          cases h3
          exact hl h4
        unfold gather
        rw [if_neg n1, if_neg n2]
        exact hfl
    · have hx' : x ∈ at' x.1 (absorbs (keyOf d) (T'.fields ix) (knowns items') []) := by
        have : x ∈ absorbs (keyOf d) (T'.fields ix) (knowns items') [] := hx
        simp [at', this]
      rw [h2] at hx'
      cases hs : (S'.fields ix)[x.1]? with
      | none =>
        unfold lastOf at hx'
        rw [hs] at hx'
        cases hx'
      | some s =>
        rw [lastOf_gather (hasKey_unique d) habsent hcompat hs] at hx'
        obtain ⟨_, ⟨y, hy, hyx⟩, _⟩ := mem_gather hx'
        obtain ⟨z, _, s2, hs2, hi, _⟩ := moved_mem hmv hy
        exact ⟨z.1, s2, hs2, by rw [← hyx, hi]⟩

/-! ### A case: the version before the name of the buffer was added to `LogUploadRequest` -/

def schema0 : Schema := schema.set 15 (s15.take 2)
def table0 : Table := table.set 15 (m15.take 2)

theorem schema0_fields (ix : Nat) : schema0.fields ix = if ix = 15 then s15.take 2 else schema.fields ix := by
  unfold Schema.fields schema0
  rw [List.getElem?_set]
  by_cases h : ix = 15
  · subst h
    rw [if_pos rfl, if_pos rfl, if_pos (by decide +kernel)]
    rfl
  · rw [if_neg (Ne.symm h), if_neg h]

theorem later0 : Later schema0 schema fun _ i => i where
  mono := fun _ _ _ h => h
  old := by
    intro ix i s h
    rw [schema0_fields] at h
    split at h
    · rename_i e
      subst e
      have e : schema.fields 15 = s15 := by decide +kernel
      rw [e]
      rw [List.getElem?_take] at h
      split at h
      · exact h
      · cases h
    · exact h
  new := by
    intro ix k s' h
    rw [schema0_fields]
    split
    · rename_i e
      subst e
      have e : schema.fields 15 = s15 := by decide +kernel
      rw [e] at h
      match k, h with
      | 0, h => exact Or.inl ⟨0, s', h, rfl⟩
      | 1, h => exact Or.inl ⟨1, s', h, rfl⟩
      | 2, h =>
        cases h
        refine Or.inr ⟨fun i => ?_, by decide, by decide⟩
        by_cases hi : 2 = i
        · subst hi; exact Or.inr rfl
        · exact Or.inl hi
    · exact Or.inl ⟨k, s', h, rfl⟩
  entry := by
    have h : ∀ fs ∈ schema0, ∀ s ∈ fs, s.label = .map → (match s.kind with | .msg jx => (schema0.fields jx)[0]?.isSome | _ => true) = true := by decide +kernel
    intro ix s jx hs hl hk
    have hx : ∃ fs ∈ schema0, s ∈ fs := by
      unfold Schema.fields at hs
      cases hf : schema0[ix]? with
      | none => rw [hf] at hs; cases hs
      | some fs => rw [hf] at hs; exact ⟨fs, List.mem_of_getElem? hf, hs⟩
    obtain ⟨fs, h1, h2⟩ := hx
    have := h fs h1 s h2 hl
    rw [hk] at this
    exact ⟨rfl, Option.isSome_iff_exists.1 this⟩

theorem tables0 : table0.ok = true ∧ table0.isFor schema0 := by
  constructor
  · decide +kernel
  · unfold Table.isFor
    decide +kernel

/-- Read with the older version, the name of the buffer is an unknown field. -/
example : read table0 (fun _ => true) 1 15 [10, 1, 97, 18, 2, 1, 2, 26, 1, 98] = some (⟨[(0, .bytes [97]), (1, .bytes [1, 2])], [(3, .len [98])]⟩ : MsgF (Msg 0)) := by
  rfl

example : ∃ m, read table0 (fun _ => true) 1 15 [18, 2, 1, 2, 72, 172, 130, 0, 138, 0, 1, 97] = some m ∧ Seen schema0 (fun _ i => i) 1 15 exM m :=
  C103_newer tables0.1 tables0.2 later0 _ 1 15 exM _ exM_fits exM_enc

end Verif.Wire
