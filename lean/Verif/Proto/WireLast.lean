import Verif.Proto.WireProps
/-
C103 for fields that occur more than once, and for defaults that are written.
-/
namespace Verif.Wire

open Handshake (Bytes varint readVarint readField)

variable {M : Type} {fm : Nat → M → Prop} {utf8 : Bytes → Bool} {enc : Nat → M → Bytes → Prop} {rd : Nat → Bytes → Option M}

/-- The arms one after the other. -/
def absorbs (key : M → Option Bytes) (fs : List Field) : List (Nat × V M) → List (Nat × V M) → List (Nat × V M)
  | [], K => K
  | x :: l, K =>
    match fs[x.1]? with
    | some f => absorbs key fs l (absorb key fs x.1 f x.2 K)
    | none => absorbs key fs l K

theorem loop_absorbs (H : ∀ ix m b, fm ix m → enc ix m b → rd ix b = some m) (key : M → Option Bytes)
    {fs : List Field} (hok : ∀ f ∈ fs, f.ok = true) (hn : (tags fs).Nodup) : ∀ (items : List (Item M)) (K : List (Nat × V M)) (U : List (Nat × Raw)) (n : Nat) (bs : Bytes),
      EncItems enc (fs.map Field.sig) items bs →
      (∀ x ∈ knowns items, ∀ s, (fs.map Field.sig)[x.1]? = some s → Typed fm utf8 s x.2) →
      (∀ u ∈ unknowns items, FitsU (fs.map Field.sig) u) → bs.length ≤ n →
      loop utf8 key rd fs n ⟨K, U⟩ bs = some ⟨absorbs key fs (knowns items) K, U ++ unknowns items⟩
  | [], K, U, n, bs, he, _, _, _ => by
    rw [EncItems] at he
    subst he
    cases n <;> simp [loop, unknowns, knowns, absorbs]
  | .inr u :: items, K, U, n, bs, he, hv, hu, hlen => by
    obtain ⟨a, b, ⟨t, p, rfl, ht, hraw⟩, hb, rfl⟩ := he
    obtain ⟨n', rfl, hlen'⟩ := fuel_step ht.1 hlen
    have hku : knowns (.inr u :: items) = knowns items := rfl
    have huu : unknowns (.inr u :: items) = u :: unknowns items := rfl
    rw [hku] at hv ⊢
    rw [huu] at hu ⊢
    have hfu := hu u (by simp)
    rw [List.append_assoc, loop_step ht.1, unknown_arm hok hfu]
    simp only [readRaw_enc (t := t) hfu hraw]
    rw [loop_absorbs H key hok hn items K (U ++ [u]) n' b hb hv (fun x hx => hu x (by simp [hx])) hlen', List.append_assoc]
    rfl
  | .inl (i, v) :: items, K, U, n, bs, he, hv, hu, hlen => by
    obtain ⟨a, b, ⟨s, hsi, t, p, rfl, hcase⟩, hb, rfl⟩ := he
    have hku : knowns (.inl (i, v) :: items) = (i, v) :: knowns items := rfl
    have huu : unknowns (.inl (i, v) :: items) = unknowns items := rfl
    rw [hku] at hv ⊢
    rw [huu] at hu ⊢
    have hpv := hv (i, v) (by simp) s hsi
    rw [List.getElem?_map] at hsi
    cases hfi : fs[i]? with
    | none => dsimp only at hsi; rw [hfi] at hsi; cases hsi
    | some f =>
    dsimp only at hsi
    rw [hfi] at hsi
    have hsf : f.sig = s := Option.some.inj hsi
    subst hsf
    have hfo := hok f (List.mem_of_getElem? hfi)
    obtain ⟨_, htag, _⟩ := ok_parts hfo
    have hab : absorbs key fs ((i, v) :: knowns items) K = absorbs key fs (knowns items) (absorb key fs i f v K) := by
      simp only [absorbs, hfi]
    rw [hab]
    have hrec := fun n' hl => loop_absorbs H key hok hn items (absorb key fs i f v K) U n' b hb (fun x hx => hv x (by simp [hx])) hu hl
    rcases hcase with ⟨ht, hpay⟩ | ⟨hl, ht, x, rfl, hx⟩
    · obtain ⟨n', rfl, hlen'⟩ := fuel_step ht.1 hlen
      rw [List.append_assoc, loop_step ht.1, ← htag, findArm_some hn hfi]
      simp only [readV_typed H hpv hpay, Nat.zero_add]
      exact hrec n' hlen'
    · obtain ⟨n', rfl, hlen'⟩ := fuel_step ht.1 hlen
      have hxr : inRange f.rk x := hpv.2 x (by simp)
      have hl : f.label = .packed := hl
      have hx : EncNum f.rk x p := hx
      have ha : f.alt = some (8 * f.sig.num + wireType f.sig.kind) := (ok_alt hfo).1 hl
      rw [List.append_assoc, loop_step ht.1, findArm_alt hn hfi ha]
      simp only [readV_single hl hx hxr, Nat.zero_add]
      exact hrec n' hlen'

theorem at_filter (p : Nat × V M → Bool) (j : Nat) (K : List (Nat × V M)) : at' j (K.filter p) = (at' j K).filter p := by
  simp only [at', List.filter_filter]
  exact List.filter_congr fun x _ => Bool.and_comm _ _

theorem filter_snoc {α : Type} (p : α → Bool) (l : List α) (x : α) : (l ++ [x]).filter p = l.filter p ++ if p x = true then [x] else [] := by
  rw [List.filter_append]
  congr 1
  by_cases h : p x = true <;> simp [h]

theorem lastKeys_snoc (hk : M → Bytes → Prop) (y : Nat × V M) (p : Nat × V M → Bool) :
    ∀ l : List (Nat × V M), (∀ x ∈ l, p x = true ↔ ¬ SameKey hk x y) → lastKeys hk (l ++ [y]) = (lastKeys hk l).filter p ++ [y]
  | [], _ => by simp [lastKeys]
  | x :: l, h => by
    have ih := lastKeys_snoc hk y p l fun z hz => h z (List.mem_cons_of_mem _ hz)
    rw [List.cons_append, lastKeys, lastKeys, ih]
    by_cases h1 : ∃ z ∈ l, SameKey hk x z
    · rw [if_pos h1, if_pos]
      obtain ⟨z, hz, hs⟩ := h1
      exact ⟨z, List.mem_append_left _ hz, hs⟩
    · rw [if_neg h1]
      have hx := h x List.mem_cons_self
      by_cases h2 : SameKey hk x y
      · rw [if_pos ⟨y, by simp, h2⟩, List.filter_cons_of_neg (by rw [hx]; simpa using h2)]
      · rw [if_neg, List.filter_cons_of_pos (hx.2 h2), List.cons_append]
        rintro ⟨z, hz, hs⟩
        rcases List.mem_append.1 hz with hz | hz
        · exact h1 ⟨z, hz, hs⟩
        · rw [List.mem_singleton] at hz; subst hz; exact h2 hs

theorem lastKeys_mem {hk : M → Bytes → Prop} {x : Nat × V M} : ∀ {l : List (Nat × V M)}, x ∈ lastKeys hk l → x ∈ l
  | [], h => by simp [lastKeys] at h
  | y :: l, h => by
    rw [lastKeys] at h
    split at h
    · exact List.mem_cons_of_mem _ (lastKeys_mem h)
    · rcases List.mem_cons.1 h with h | h
      · exact h ▸ List.mem_cons_self
      · exact List.mem_cons_of_mem _ (lastKeys_mem h)

/-- A field that the last item does not touch. -/
theorem lastOf_ne {hk : M → Bytes → Prop} {ss : List SField} {i j : Nat} {v : V M} {l : List (Nat × V M)} (h : i ≠ j)
    (hg : ∀ s s' g, ss[i]? = some s → ss[j]? = some s' → s.label = .one g → s'.label ≠ .one g) : lastOf hk ss j (l ++ [(i, v)]) = lastOf hk ss j l := by
  have e : (l ++ [(i, v)]).filter (fun x => x.1 = j) = l.filter fun x => x.1 = j := by rw [filter_snoc, if_neg (by simpa using h), List.append_nil]
  unfold lastOf
  cases hj : ss[j]? with
  | none => rfl
  | some s' =>
    dsimp only
    cases hl : s'.label with
    | plain => dsimp only; rw [e]
    | opt => dsimp only; rw [e]
    | always => dsimp only; rw [e]
    | rep => dsimp only; rw [e]
    | packed => exact gather_snoc_ne h
    | map => dsimp only; rw [e]
    | one g =>
      dsimp only
      rw [filter_snoc, if_neg, List.append_nil]
      simp only [decide_eq_true_eq]
      rintro ⟨s, hs, hsl⟩
      exact hg s s' g hs hj hsl hl

theorem absent_default {f : Field} (hok : f.ok = true) {v : V M} (hl : f.label ≠ .packed) (hv : Typed fm utf8 f.sig v) : isDefault f v = true ↔ Absent f.sig v := by
  obtain ⟨_, _, _, _, h0⟩ := ok_parts hok
  cases v with
  | num n =>
    simp only [isDefault, h0, Absent, Bool.or_eq_true, Bool.and_eq_true, decide_eq_true_eq, or_assoc]
    rfl
  | bytes b => simp [isDefault, Absent]
  | nums l => exact absurd hv.1 hl
  | msg m => simp [isDefault, Absent]

/-- One arm. -/
theorem absorb_last {key : M → Option Bytes} {hk : M → Bytes → Prop} (Hk : ∀ m b, hk m b → key m = some b) {fs : List Field} {i : Nat} {f : Field} (hf : fs[i]? = some f)
    (hok : f.ok = true) {v : V M} (hv : Typed fm utf8 f.sig v) (hm : f.label = .map → ∃ m b, v = .msg m ∧ hk m b) {done K : List (Nat × V M)}
    (hd : f.label = .map → ∀ x ∈ done, x.1 = i → ∃ m b, x.2 = .msg m ∧ hk m b)
    (hs : Sorted K) (hg : ∀ j, at' j K = lastOf hk (fs.map Field.sig) j done) :
    Sorted (absorb key fs i f v K) ∧ ∀ j, at' j (absorb key fs i f v K) = lastOf hk (fs.map Field.sig) j (done ++ [(i, v)]) := by
  have hfi : (fs.map Field.sig)[i]? = some f.sig := by rw [List.getElem?_map, hf]; rfl
  have hsnoc : (done ++ [(i, v)]).filter (fun x => x.1 = i) = done.filter (fun x => x.1 = i) ++ [(i, v)] := by rw [filter_snoc, if_pos (by simp)]
  have hother : (∀ g, f.label ≠ .one g) → ∀ j, i ≠ j → lastOf hk (fs.map Field.sig) j (done ++ [(i, v)]) = at' j K := by
    intro hl j hj
    rw [lastOf_ne hj, hg]
    intro s s' g h _ hs _
    rw [hfi] at h
    cases h
    exact hl g hs
  -- set: the field is replaced
  have hset : (∀ g, f.label ≠ .one g) → lastOf hk (fs.map Field.sig) i (done ++ [(i, v)]) = [(i, v)] →
      Sorted (ins i v (K.filter fun x => decide (x.1 ≠ i))) ∧ ∀ j, at' j (ins i v (K.filter fun x => decide (x.1 ≠ i))) = lastOf hk (fs.map Field.sig) j (done ++ [(i, v)]) := by
    intro hl he
    refine ⟨sorted_ins (sorted_filter _ hs), fun j => ?_⟩
    rw [at_ins (sorted_filter _ hs), at_filter]
    by_cases hj : i = j
    · subst hj
      rw [he, if_pos rfl, List.filter_eq_nil_iff.2, List.nil_append]
      intro x hx
      simpa [at'] using (List.mem_filter.1 hx).2
    · rw [hother hl j hj, if_neg hj, List.append_nil, List.filter_eq_self]
      intro x hx
      have : x.1 = j := by simpa [at'] using (List.mem_filter.1 hx).2
      simp [this, Ne.symm hj]
  have hunset : (∀ g, f.label ≠ .one g) → lastOf hk (fs.map Field.sig) i (done ++ [(i, v)]) = [] →
      Sorted (K.filter fun x => decide (x.1 ≠ i)) ∧ ∀ j, at' j (K.filter fun x => decide (x.1 ≠ i)) = lastOf hk (fs.map Field.sig) j (done ++ [(i, v)]) := by
    intro hl he
    refine ⟨sorted_filter _ hs, fun j => ?_⟩
    rw [at_filter]
    by_cases hj : i = j
    · subst hj
      rw [he, List.filter_eq_nil_iff]
      intro x hx
      simpa [at'] using (List.mem_filter.1 hx).2
    · rw [hother hl j hj, List.filter_eq_self]
      intro x hx
      have : x.1 = j := by simpa [at'] using (List.mem_filter.1 hx).2
      simp [this, Ne.symm hj]
  unfold absorb
  cases hlab : f.label with
  | plain =>
    have hlab' : f.sig.label = .plain := hlab
    have hl : ∀ g, f.label ≠ .one g := by rw [hlab]; nofun
    have hd := absent_default hok (by rw [hlab]; nofun) hv
    have e : lastOf hk (fs.map Field.sig) i (done ++ [(i, v)]) = [(i, v)].filter (fun x => ¬ isDefault f x.2 = true) := by
      unfold lastOf
      rw [hfi]
      simp only [hlab']
      rw [hsnoc, List.getLast?_concat, Option.toList_some]
      apply List.filter_congr
      intro x hx
      rw [List.mem_singleton] at hx
      subst hx
      by_cases h : Absent f.sig v
      · have h' := hd.2 h
        simp [h, h']
      · have h' : ¬ isDefault f v = true := mt hd.1 h
        simp [h, h']
    dsimp only
    by_cases hdf : isDefault f v = true
    · rw [if_pos hdf]
      exact hunset hl (by rw [e, List.filter_cons_of_neg (by simpa using hdf)]; rfl)
    · rw [if_neg hdf]
      exact hset hl (by rw [e, List.filter_cons_of_pos (by simpa using hdf)]; rfl)
  | opt =>
    have hlab' : f.sig.label = .opt := hlab
    exact hset (by rw [hlab]; nofun) (by unfold lastOf; rw [hfi]; simp only [hlab']; rw [hsnoc, List.getLast?_concat, Option.toList_some])
  | always =>
    have hlab' : f.sig.label = .always := hlab
    exact hset (by rw [hlab]; nofun) (by unfold lastOf; rw [hfi]; simp only [hlab']; rw [hsnoc, List.getLast?_concat, Option.toList_some])
  | rep =>
    have hlab' : f.sig.label = .rep := hlab
    dsimp only
    refine ⟨sorted_ins hs, fun j => ?_⟩
    rw [at_ins hs]
    by_cases hj : i = j
    · subst hj
      rw [if_pos rfl, hg]
      unfold lastOf
      rw [hfi]
      simp only [hlab']
      rw [hsnoc]
    · rw [if_neg hj, List.append_nil, hother (by rw [hlab]; nofun) j hj]
  | packed =>
    have hlab' : f.sig.label = .packed := hlab
    have hp : Packed (fs.map Field.sig) i := ⟨f.sig, hfi, hlab⟩
    have hlp : ∀ l : List (Nat × V M), lastOf hk (fs.map Field.sig) i l = gather (fs.map Field.sig) i l := by
      intro l
      unfold lastOf
      rw [hfi]
      simp only [hlab']
    have hi := hg i
    rw [hlp, gather_packed hp] at hi
    have hh := held_eq hi
    cases v with
    | num n => exact absurd hlab' hv.1
    | bytes n => exact absurd hlab' hv.1
    | msg n => exact absurd hlab' hv.1
    | nums l =>
    simp only [hh, numsOf]
    have hgi : lastOf hk (fs.map Field.sig) i (done ++ [(i, .nums l)]) = if sofar i done ++ l = [] then [] else [(i, .nums (sofar i done ++ l))] := by
      rw [hlp, gather_packed hp, sofar_snoc]
      rfl
    have hfil : Sorted (K.filter fun x => decide (x.1 ≠ i)) := sorted_filter _ hs
    have hat : ∀ j, at' j (K.filter fun x => decide (x.1 ≠ i)) = if i = j then [] else at' j K := by
      intro j
      rw [at_filter]
      split
      · rename_i e
        subst e
        rw [List.filter_eq_nil_iff]
        intro x hx
        simpa [at'] using (List.mem_filter.1 hx).2
      · rename_i e
        rw [List.filter_eq_self]
        intro x hx
        have : x.1 = j := by simpa [at'] using (List.mem_filter.1 hx).2
        simp [this, Ne.symm e]
    by_cases he : sofar i done ++ l = []
    · have : (sofar i done ++ l).isEmpty = true := by rw [he]; rfl
      rw [if_pos this]
      refine ⟨hfil, fun j => ?_⟩
      rw [hat]
      split
      · rename_i e
        subst e
        rw [hgi, if_pos he]
      · rename_i e
        rw [hother (by rw [hlab]; nofun) j e]
    · have : ¬ (sofar i done ++ l).isEmpty = true := by simpa using he
      rw [if_neg this]
      refine ⟨sorted_ins hfil, fun j => ?_⟩
      rw [at_ins hfil, hat]
      split
      · rename_i e
        subst e
        rw [hgi, if_neg he, List.nil_append]
      · rename_i e
        rw [hother (by rw [hlab]; nofun) j e, List.append_nil]
  | map =>
    have hlab' : f.sig.label = .map := hlab
    dsimp only
    refine ⟨sorted_ins (sorted_filter _ hs), fun j => ?_⟩
    rw [at_ins (sorted_filter _ hs), at_filter]
    by_cases hj : i = j
    · subst hj
      rw [if_pos rfl, hg]
      unfold lastOf
      rw [hfi]
      simp only [hlab']
      rw [hsnoc, lastKeys_snoc hk (i, v) _ (done.filter fun x => x.1 = i)]
      intro x hx
      obtain ⟨hxd, hxi⟩ := List.mem_filter.1 hx
      have hxi : x.1 = i := by simpa using hxi
      obtain ⟨m, b, em, hb⟩ := hm hlab
      obtain ⟨m', b', em', hb'⟩ := hd hlab x hxd hxi
      subst em
      rw [em']
      simp only [hxi, decide_true, Bool.true_and, vkey, Hk m b hb, Hk m' b' hb']
      unfold SameKey
      rw [em']
      constructor
      · rintro h ⟨n, n', c, e1, e2, h1, h2⟩
        cases e1
        cases e2
        have := Hk _ _ h1
        rw [Hk _ _ hb'] at this
        have h3 := Hk _ _ h2
        rw [Hk _ _ hb] at h3
        simp only [Option.some.injEq] at this h3
        simp [this, h3] at h
      · intro h
        by_cases hbb : b' = b
        · exact absurd ⟨m', m, b, rfl, rfl, hbb ▸ hb', hb⟩ h
        · simp [hbb]
    · rw [if_neg hj, List.append_nil, hother (by rw [hlab]; nofun) j hj, List.filter_eq_self]
      intro x hx
      have : x.1 = j := by simpa [at'] using (List.mem_filter.1 hx).2
      simp [this, Ne.symm hj]
  | one g =>
    have hlab' : f.sig.label = .one g := hlab
    dsimp only
    refine ⟨sorted_ins (sorted_filter _ hs), fun j => ?_⟩
    rw [at_ins (sorted_filter _ hs), at_filter]
    have hgrp : ∀ x : Nat × V M, group fs x.1 = some g ↔ ∃ s, (fs.map Field.sig)[x.1]? = some s ∧ s.label = .one g := by
      intro x
      unfold group
      rw [List.getElem?_map]
      cases fs[x.1]? with
      | none => simp
      | some f' =>
        simp only [Option.map_some, Option.some.injEq, exists_eq_left']
        show _ ↔ f'.label = _
        cases f'.label <;> simp
    by_cases hjg : ∃ s, (fs.map Field.sig)[j]? = some s ∧ s.label = .one g
    · obtain ⟨s', hs', hl'⟩ := hjg
      have e1 : (at' j K).filter (fun x => decide (group fs x.1 ≠ some g)) = [] := by
        rw [List.filter_eq_nil_iff]
        intro x hx
        have : x.1 = j := by simpa [at'] using (List.mem_filter.1 hx).2
        have : group fs x.1 = some g := by rw [hgrp, this]; exact ⟨s', hs', hl'⟩
        simp [this]
      rw [e1, List.nil_append]
      unfold lastOf
      rw [hs']
      simp only [hl']
      have e2 : (done ++ [(i, v)]).filter (fun x => decide (∃ s', (fs.map Field.sig)[x.1]? = some s' ∧ s'.label = .one g)) =
          done.filter (fun x => decide (∃ s', (fs.map Field.sig)[x.1]? = some s' ∧ s'.label = .one g)) ++ [(i, v)] := by
        rw [filter_snoc, if_pos (by rw [decide_eq_true_eq]; exact ⟨_, hfi, hlab'⟩)]
      rw [e2, List.getLast?_concat, Option.toList_some]
      by_cases hj : i = j
      · rw [if_pos hj, List.filter_cons_of_pos (by simpa using hj)]; rfl
      · rw [if_neg hj, List.filter_cons_of_neg (by simpa using hj)]; rfl
    · have hj : i ≠ j := by
        rintro rfl
        exact hjg ⟨_, hfi, hlab'⟩
      rw [if_neg hj, List.append_nil, lastOf_ne hj, ← hg, List.filter_eq_self]
      · intro x hx
        have : x.1 = j := by simpa [at'] using (List.mem_filter.1 hx).2
        rw [decide_eq_true_eq]
        intro h
        rw [hgrp, this] at h
        exact hjg h
      · intro s s' g' h h' hs hs'
        rw [hfi] at h
        cases h
        rw [hlab'] at hs
        cases hs
        exact hjg ⟨s', h', hs'⟩

theorem absorbs_last {key : M → Option Bytes} {hk : M → Bytes → Prop} (Hk : ∀ m b, hk m b → key m = some b) {fs : List Field} (hok : ∀ f ∈ fs, f.ok = true) :
    ∀ (l done K : List (Nat × V M)),
      (∀ x ∈ done ++ l, ∀ s, (fs.map Field.sig)[x.1]? = some s → Typed fm utf8 s x.2 ∧ (s.label = .map → ∃ m b, x.2 = .msg m ∧ hk m b)) →
      (∀ x ∈ l, ∃ f, fs[x.1]? = some f) → Sorted K → (∀ j, at' j K = lastOf hk (fs.map Field.sig) j done) →
      Sorted (absorbs key fs l K) ∧ ∀ j, at' j (absorbs key fs l K) = lastOf hk (fs.map Field.sig) j (done ++ l)
  | [], done, K, _, _, hs, hg => by simpa [absorbs] using ⟨hs, hg⟩
  | (i, v) :: l, done, K, ht, hi, hs, hg => by
    obtain ⟨f, hf⟩ := hi (i, v) (by simp)
    dsimp only at hf
    have hfi : (fs.map Field.sig)[i]? = some f.sig := by rw [List.getElem?_map, hf]; rfl
    obtain ⟨h1, h2⟩ := ht (i, v) (by simp) f.sig hfi
    obtain ⟨hs', hg'⟩ := absorb_last (key := key) Hk hf (hok f (List.mem_of_getElem? hf)) h1 h2 (done := done) (fun hl x hx hxi => by
      exact (ht x (by simp [hx]) f.sig (by rw [hxi]; exact hfi)).2 hl) hs hg
    have := absorbs_last Hk hok l (done ++ [(i, v)]) (absorb key fs i f v K) (by simpa using ht) (fun x hx => hi x (by simp [hx])) hs' hg'
    simp only [absorbs, hf]
    simpa using this

theorem encItems_mem {ss : List SField} : ∀ {items : List (Item M)} {bs : Bytes}, EncItems enc ss items bs → ∀ x ∈ knowns items, ∃ s, ss[x.1]? = some s
  | [], _, _, x, hx => by simp [knowns] at hx
  | .inr u :: items, _, ⟨_, b, _, h2, _⟩, x, hx => encItems_mem h2 x hx
  | .inl y :: items, _, ⟨_, b, ⟨s, h1, _⟩, h2, _⟩, x, hx => by
    have : knowns (.inl y :: items) = y :: knowns items := rfl
    rw [this] at hx
    rcases List.mem_cons.1 hx with rfl | hx
    · exact ⟨s, h1⟩
    · exact encItems_mem h2 x hx

/-- **C103.** Reading any sequence of fields, repeated ones and written defaults included: the last one counts (of a oneof, of all its
fields; of a map, for its key), all elements of repeated fields are kept, and unknown fields are kept. -/
theorem C103_last {T : Table} {S : Schema} (hT : T.ok = true) (hS : T.isFor S) (utf8 : Bytes → Bool) (d ix : Nat) (m : Msg d) (bs : Bytes)
    (h : Says S utf8 d ix m bs) : read T utf8 d ix bs = some m := by
  induction d generalizing ix bs with
  | zero => exact h.elim
  | succ d ih =>
    obtain ⟨hok, hn⟩ := fields_ok hT ix
    obtain ⟨items, he, ht, hu, hs, hg, hun⟩ := h
    rw [← fields_for hS] at he ht hu hg
    show loop utf8 (keyOf d) (read T utf8 d) (T.fields ix) bs.length ⟨[], []⟩ bs = some m
    rw [loop_absorbs (fm := fun _ _ => True) (enc := Says S utf8 d) (fun ix m b _ h => ih ix m b h) (keyOf d) hok hn items [] [] bs.length bs he
      (fun x hx s hs => (ht x hx s hs).1) hu (Nat.le_refl _), List.nil_append, ← hun]
    obtain ⟨h1, h2⟩ := absorbs_last (key := keyOf d) (key_of d) hok (knowns items) [] [] ht (fun x hx => by
      obtain ⟨s, hs⟩ := encItems_mem he x hx
      rw [List.getElem?_map] at hs
      cases hf : (T.fields ix)[x.1]? with
      | none => rw [hf] at hs; cases hs
      | some f => exact ⟨f, rfl⟩) List.Pairwise.nil (fun j => by
        unfold lastOf gather
        split
        · rfl
        · split <;> simp [at', lastKeys])
    have : absorbs (keyOf d) (T.fields ix) (knowns items) [] = MsgF.known m := sorted_ext h1 hs fun j => by rw [h2 j]; exact (hg j).symm
    rw [this]
    rfl

/-- A case: the identifier twice, and an empty third field. -/
theorem exL_says : Says schema (fun _ => true) 1 ixLogUploadRequest (⟨[(0, .bytes [98])], []⟩ : MsgF (Msg 0)) [10, 1, 97, 10, 1, 98, 26, 0] := by
  have e : schema.fields ixLogUploadRequest = s15 := by decide +kernel
  show SaysF _ _ _ (schema.fields ixLogUploadRequest) _ _
  rw [e]
  refine ⟨[.inl (0, .bytes [97]), .inl (0, .bytes [98]), .inl (2, .bytes [])], ?_, ?_, ?_, ?_, ?_, rfl⟩
  · refine ⟨[10, 1, 97], [10, 1, 98, 26, 0], ⟨⟨1, .str, .plain⟩, rfl, [10], [1, 97], rfl, Or.inl ⟨⟨.last 10 (by decide), by decide⟩, nofun,
      [1], ⟨.last 1 (by decide), by decide⟩, rfl⟩⟩, ?_, rfl⟩
    refine ⟨[10, 1, 98], [26, 0], ⟨⟨1, .str, .plain⟩, rfl, [10], [1, 98], rfl, Or.inl ⟨⟨.last 10 (by decide), by decide⟩, nofun,
      [1], ⟨.last 1 (by decide), by decide⟩, rfl⟩⟩, ?_, rfl⟩
    exact ⟨[26, 0], [], ⟨⟨3, .str, .plain⟩, rfl, [26], [0], rfl, Or.inl ⟨⟨.last 26 (by decide), by decide⟩, nofun,
      [0], ⟨.last 0 (by decide), by decide⟩, rfl⟩⟩, rfl, rfl⟩
  · have ek : knowns [.inl (0, .bytes [97]), .inl (0, .bytes [98]), .inl (2, .bytes [])] = [(0, V.bytes (M := Msg 0) [97]), (0, .bytes [98]), (2, .bytes [])] := rfl
    rw [ek]
    simp [s15, Typed]
  · intro u hu
    simp [unknowns] at hu
  · simp
  · have ek : knowns [.inl (0, .bytes [97]), .inl (0, .bytes [98]), .inl (2, .bytes [])] = [(0, V.bytes (M := Msg 0) [97]), (0, .bytes [98]), (2, .bytes [])] := rfl
    rw [ek]
    intro j
    match j with
    | 0 => simp [lastOf, s15, Absent]
    | 1 => simp [lastOf, s15]
    | 2 => simp [lastOf, s15, Absent]
    | j + 3 => simp [lastOf, s15]

example : read table (fun _ => true) 1 ixLogUploadRequest [10, 1, 97, 10, 1, 98, 26, 0] = some (⟨[(0, .bytes [98])], []⟩ : MsgF (Msg 0)) :=
  C103_last C103_tables.1 C103_tables.2 _ 1 _ _ _ exL_says

end Verif.Wire
