import Verif.Proto.Hash
/-
C82: equal messages have equal hashes.
-/
namespace Verif.Proto

/-! ### The order of key texts -/

theorem lexLe_total : ∀ a b : List Nat, (lexLe a b || lexLe b a) = true
  | [], _ => by simp [lexLe]
  | _ :: _, [] => by simp [lexLe]
  | a :: x, b :: y => by
    have := lexLe_total x y
    simp only [lexLe]
    by_cases h1 : a < b
    · simp [h1]
    · by_cases h2 : b < a
      · simp [h2]
      · simpa [h1, h2] using this

theorem lexLe_antisymm : ∀ a b : List Nat, lexLe a b = true → lexLe b a = true → a = b
  | [], [], _, _ => rfl
  | [], _ :: _, _, h => by simp [lexLe] at h
  | _ :: _, [], h, _ => by simp [lexLe] at h
  | a :: x, b :: y, h1, h2 => by
    simp only [lexLe] at h1 h2
    by_cases l1 : a < b
    · have : ¬ b < a := by omega
      simp [this, l1] at h2
    · by_cases l2 : b < a
      · simp [l1, l2] at h1
      · simp only [l1, l2, if_false] at h1 h2
        rw [lexLe_antisymm x y h1 h2, show a = b by omega]

theorem lexLe_trans : ∀ a b c : List Nat, lexLe a b = true → lexLe b c = true → lexLe a c = true
  | [], _, _, _, _ => by simp [lexLe]
  | _ :: _, [], _, h, _ => by simp [lexLe] at h
  | _ :: _, _ :: _, [], _, h => by simp [lexLe] at h
  | a :: x, b :: y, c :: z, h1, h2 => by
    simp only [lexLe] at h1 h2 ⊢
    by_cases l1 : a < b
    · by_cases l2 : b < c
      · rw [if_pos (by omega)]
      · by_cases l3 : c < b
        · simp [l2, l3] at h2
        · rw [if_pos (by omega)]
    · by_cases l1' : b < a
      · simp [l1, l1'] at h1
      · have hab : a = b := by omega
        subst hab
        simp only [l1, if_false] at h1
        by_cases l2 : a < c
        · rw [if_pos l2]
        · by_cases l3 : c < a
          · simp [l2, l3] at h2
          · simp only [l2, l3, if_false] at h2 ⊢
            exact lexLe_trans x y z h1 h2

/-! ### Texts of different keys are different -/

/-- Reading decimal digits. -/
def undecimal (l : List Nat) : Nat := l.foldl (fun a d => a * 10 + (d - 48)) 0

theorem undecimal_decimal (n : Nat) : undecimal (decimal n) = n := by
  induction n using Nat.strongRecOn with
  | _ n ih =>
    rw [decimal]
    split
    · simp [undecimal]
    · rename_i h
      have := ih (n / 10) (by omega)
      unfold undecimal at this ⊢
      rw [List.foldl_append, this]
      simp only [List.foldl_cons, List.foldl_nil]
      omega

theorem decimal_inj {a b : Nat} (h : decimal a = decimal b) : a = b := by
  rw [← undecimal_decimal a, h, undecimal_decimal]

theorem decimal_digit (n : Nat) : ∀ d ∈ decimal n, 48 ≤ d := by
  induction n using Nat.strongRecOn with
  | _ n ih =>
    rw [decimal]
    split
    · simp
    · intro d hd
      rcases List.mem_append.mp hd with h | h
      · exact ih (n / 10) (by omega) d h
      · simp only [List.mem_singleton] at h; omega

theorem decimalInt_inj {a b : Int} (h : decimalInt a = decimalInt b) : a = b := by
  unfold decimalInt at h
  split at h <;> split at h
  · have := decimal_inj h; omega
  · have := decimal_digit a.toNat 45 (by rw [h]; simp)
    omega
  · have := decimal_digit b.toNat 45 (by rw [← h]; simp)
    omega
  · simp only [List.cons.injEq, true_and] at h
    have := decimal_inj h; omega

theorem keyText_inj {a b : Sc} (hk : sameKind a b = true) (h : keyText a = keyText b) : a = b := by
  cases a <;> cases b <;> simp only [sameKind, Bool.false_eq_true] at hk <;>
    simp only [keyText] at h
  · rw [decimal_inj h]
  · rw [decimal_inj h]
  · rw [decimalInt_inj h]
  · rw [decimalInt_inj h]
  · rename_i x y
    cases x <;> cases y <;> first | rfl | (exact absurd h (by decide))
  · rw [h]

/-! ### The main theorem -/

theorem sameKind_symm {a b : Sc} (h : sameKind a b = true) : sameKind b a = true := by
  cases a <;> cases b <;> first | rfl | cases h

theorem hKvs_fst : ∀ m : Kvs, (hKvs m).map (·.1) = m.keys.map keyText
  | .nil => rfl
  | .cons k v r => by simp [hKvs, Kvs.keys, hKvs_fst r]

/-- Sorting the entries of a map gives the same list for every order of iteration. -/
theorem sorted_eq {m m' : Kvs} (hp : (hKvs m).Perm (hKvs m'))
    (hw : m.keys.Pairwise (fun a b => sameKind a b = true ∧ a ≠ b)) :
    ((hKvs m).mergeSort fun a b => lexLe a.1 b.1) = ((hKvs m').mergeSort fun a b => lexLe a.1 b.1)
    := by
  have hnd : ((hKvs m).map (·.1)).Nodup := by
    rw [hKvs_fst, List.Nodup, List.pairwise_map]
    exact hw.imp fun h e => h.2 (keyText_inj h.1 e)
  refine List.Perm.eq_of_pairwise (le := fun a b => lexLe a.1 b.1 = true) ?_ ?_ ?_ ?_
  · intro a b ha hb h1 h2
    have e := lexLe_antisymm _ _ h1 h2
    have ha' : a ∈ hKvs m := (List.mergeSort_perm _ _).mem_iff.mp ha
    have hb' : b ∈ hKvs m := hp.mem_iff.mpr ((List.mergeSort_perm _ _).mem_iff.mp hb)
    have inj : ∀ l : List (List Nat × List Nat), (l.map (·.1)).Nodup →
        ∀ a ∈ l, ∀ b ∈ l, a.1 = b.1 → a = b := by
      intro l
      induction l with
      | nil => intro _ a ha; simp at ha
      | cons x l ih =>
        intro hn a ha b hb hab
        simp only [List.map_cons, List.nodup_cons, List.mem_map, not_exists, not_and] at hn
        rcases List.mem_cons.mp ha with ea | ha1
        · rcases List.mem_cons.mp hb with eb | hb1
          · rw [ea, eb]
          · exact absurd (by rw [← ea, hab]) (hn.1 b hb1)
        · rcases List.mem_cons.mp hb with eb | hb1
          · exact absurd (by rw [← eb, hab]) (hn.1 a ha1)
          · exact ih hn.2 a ha1 b hb1 hab
    exact inj _ hnd a ha' b hb' e
  · exact List.pairwise_mergeSort (fun a b c => lexLe_trans a.1 b.1 c.1)
      (fun a b => lexLe_total a.1 b.1) _
  · exact List.pairwise_mergeSort (fun a b c => lexLe_trans a.1 b.1 c.1)
      (fun a b => lexLe_total a.1 b.1) _
  · exact ((List.mergeSort_perm _ _).trans hp).trans (List.mergeSort_perm _ _).symm

mutual
theorem sameV_hash : ∀ {a b : V}, SameV a b → a.Wf → b.Wf ∧ hV a = hV b
  | _, _, .sc _, _ => ⟨trivial, rfl⟩
  | _, _, .msg h, w => by
    have := sameFs_hash h (by simpa [V.Wf] using w)
    exact ⟨by simpa [V.Wf] using this.1, by simp only [hV, this.2]⟩
theorem sameFs_hash : ∀ {a b : Fs}, SameFs a b → a.Wf → b.Wf ∧ hFs a = hFs b
  | _, _, .nil, _ => ⟨by simp [Fs.Wf], rfl⟩
  | _, _, .absent _ h, w => by
    have := sameFs_hash h (by simpa [Fs.Wf] using w)
    exact ⟨by simpa [Fs.Wf] using this.1, by simp only [hFs, this.2]⟩
  | _, _, .opt _ hv h, w => by
    simp only [Fs.Wf] at w ⊢
    have h1 := sameV_hash hv w.1
    have h2 := sameFs_hash h w.2
    exact ⟨⟨h1.1, h2.1⟩, by simp only [hFs, h1.2, h2.2]⟩
  | _, _, .rep _ hv h, w => by
    simp only [Fs.Wf] at w ⊢
    have h1 := sameVs_hash hv w.1
    have h2 := sameFs_hash h w.2
    exact ⟨⟨h1.1, h2.1⟩, by simp only [hFs, h1.2.1, h1.2.2, h2.2]⟩
  | _, _, .map _ hv h, w => by
    simp only [Fs.Wf] at w ⊢
    have h1 := sameKvs_hash hv w.1
    have h2 := sameFs_hash h w.2.2
    refine ⟨⟨h1.1, ?_, h2.1⟩, ?_⟩
    · exact (h1.2.2.pairwise_iff (fun {a b} h => ⟨sameKind_symm h.1, h.2.symm⟩)).mp w.2.1
    · simp only [hFs, sorted_eq h1.2.1 w.2.1, h2.2]
theorem sameVs_hash : ∀ {a b : Vs}, SameVs a b → a.Wf → b.Wf ∧ hVs a = hVs b ∧ a.len = b.len
  | _, _, .nil, _ => ⟨by simp [Vs.Wf], rfl, rfl⟩
  | _, _, .cons hv h, w => by
    simp only [Vs.Wf] at w ⊢
    have h1 := sameV_hash hv w.1
    have h2 := sameVs_hash h w.2
    exact ⟨⟨h1.1, h2.1⟩, by simp only [hVs, h1.2, h2.2.1], by simp only [Vs.len, h2.2.2]⟩
theorem sameKvs_hash : ∀ {a b : Kvs}, SameKvs a b → a.Wf →
    b.Wf ∧ (hKvs a).Perm (hKvs b) ∧ a.keys.Perm b.keys
  | _, _, .nil, _ => ⟨by simp [Kvs.Wf], .refl _, .refl _⟩
  | _, _, .cons k hv h, w => by
    simp only [Kvs.Wf] at w ⊢
    have h1 := sameV_hash hv w.1
    have h2 := sameKvs_hash h w.2
    refine ⟨⟨h1.1, h2.1⟩, ?_, ?_⟩
    · simp only [hKvs, h1.2]; exact h2.2.1.cons _
    · simp only [Kvs.keys]; exact h2.2.2.cons _
  | _, _, .swap k k' v v' a, w => by
    simp only [Kvs.Wf] at w ⊢
    refine ⟨⟨w.2.1, w.1, w.2.2⟩, ?_, ?_⟩
    · simp only [hKvs]; exact List.Perm.swap _ _ _
    · simp only [Kvs.keys]; exact List.Perm.swap _ _ _
  | _, _, .trans h h', w => by
    have h1 := sameKvs_hash h w
    have h2 := sameKvs_hash h' h1.1
    exact ⟨h2.1, h1.2.1.trans h2.2.1, h1.2.2.trans h2.2.2⟩
end

/-- **C82** messages that agree bit for bit, up to the order in which maps are iterated, feed the
same bytes into the hasher. -/
theorem C82_same (a b : Fs) (h : SameFs a b) (hw : a.Wf) : hFs a = hFs b :=
  (sameFs_hash h hw).2

/-! ### Different messages -/

/-- The kinds of fixed width: bytes, and whether a scalar has the kind and is in its range. -/
inductive Kind where
  | u32 | u64 | i32 | i64 | f32 | f64 | bool
  deriving DecidableEq, Repr

def Kind.Has : Kind → Sc → Prop
  | .u32, .u32 n => n < 256 ^ 4
  | .u64, .u64 n => n < 256 ^ 8
  | .i32, .i32 n => -(2 ^ 31 : Int) ≤ n ∧ n < 2 ^ 31
  | .i64, .i64 n => -(2 ^ 63 : Int) ≤ n ∧ n < 2 ^ 63
  | .f32, .f32 n => n < 256 ^ 4
  | .f64, .f64 n => n < 256 ^ 8
  | .bool, .bool _ => True
  | _, _ => False

def Kind.width : Kind → Nat
  | .u32 | .i32 | .f32 => 4
  | .u64 | .i64 | .f64 => 8
  | .bool => 1

/-- A message with the given fields (number and kind), all optional and of fixed width. -/
def Flat : List (Nat × Kind) → Fs → Prop
  | [], .nil => True
  | (n, _) :: r, .absent m a => m = n ∧ Flat r a
  | (n, k) :: r, .opt m (.sc s) a => m = n ∧ k.Has s ∧ Flat r a
  | _, _ => False

theorem leBytes_length : ∀ k n, (leBytes k n).length = k
  | 0, _ => rfl
  | k + 1, n => by simp [leBytes, leBytes_length k]

theorem leBytes_inj : ∀ k a b, a < 256 ^ k → b < 256 ^ k → leBytes k a = leBytes k b → a = b
  | 0, a, b, ha, hb, _ => by simp at ha hb; omega
  | k + 1, a, b, ha, hb, h => by
    simp only [leBytes, List.cons.injEq] at h
    rw [Nat.pow_succ] at ha hb
    have := leBytes_inj k (a / 256) (b / 256) (by omega) (by omega) h.2
    omega

theorem hSc_width {k : Kind} {s : Sc} (h : k.Has s) : (hSc s).length = k.width := by
  cases k <;> cases s <;> simp only [Kind.Has] at h <;>
    simp only [hSc, leBytes_length, Kind.width]
  split <;> rfl

theorem hSc_inj {k : Kind} {s s' : Sc} (h : k.Has s) (h' : k.Has s') (e : hSc s = hSc s') :
    s = s' := by
  cases k <;> cases s <;> simp only [Kind.Has] at h <;> cases s' <;> simp only [Kind.Has] at h' <;>
    simp only [hSc] at e
  · rw [leBytes_inj 4 _ _ h h' e]
  · rw [leBytes_inj 8 _ _ h h' e]
  · have := leBytes_inj 4 _ _ (by unfold twos; omega) (by unfold twos; omega) e
    simp only [twos] at this
    congr 1; omega
  · have := leBytes_inj 8 _ _ (by unfold twos; omega) (by unfold twos; omega) e
    simp only [twos] at this
    congr 1; omega
  · rw [leBytes_inj 4 _ _ h h' e]
  · rw [leBytes_inj 8 _ _ h h' e]
  · rename_i x y; cases x <;> cases y <;> first | rfl | (simp at e)

/-- The hash of a flat message is empty or starts with the number of one of its fields. -/
theorem flat_start : ∀ (sch : List (Nat × Kind)) (a : Fs), Flat sch a →
    hFs a = [] ∨ ∃ n rest, n ∈ sch.map (·.1) ∧ hFs a = leBytes 4 n ++ rest
  | [], .nil, _ => Or.inl rfl
  | (n, k) :: r, .absent m a, h => by
    rcases flat_start r a h.2 with e | ⟨x, rest, hx, e⟩
    · left; simpa only [hFs] using e
    · right; exact ⟨x, rest, by simp [hx], by simpa only [hFs] using e⟩
  | (n, k) :: r, .opt m (.sc s) a, h => by
    right
    exact ⟨n, hSc s ++ hFs a, by simp, by simp only [hFs, hV, h.1, List.append_assoc]⟩
  | [], .absent _ _, h => by simp [Flat] at h
  | [], .opt _ _ _, h => by simp [Flat] at h
  | [], .rep _ _ _, h => by simp [Flat] at h
  | [], .map _ _ _, h => by simp [Flat] at h
  | _ :: _, .nil, h => by simp [Flat] at h
  | _ :: _, .opt _ (.msg _) _, h => by simp [Flat] at h
  | _ :: _, .rep _ _ _, h => by simp [Flat] at h
  | _ :: _, .map _ _ _, h => by simp [Flat] at h

theorem append_inj' {a b c d : List Nat} (hl : a.length = c.length) (h : a ++ b = c ++ d) :
    a = c ∧ b = d := List.append_inj h hl

/-- A present field cannot be mistaken for a message of other fields. -/
theorem present_ne {n : Nat} {sch : List (Nat × Kind)} (hn : n < 256 ^ 4)
    (hs : ∀ m ∈ sch.map (·.1), m < 256 ^ 4 ∧ m ≠ n) {b : Fs} (hb : Flat sch b) (x : List Nat) :
    leBytes 4 n ++ x ≠ hFs b := by
  intro e
  rcases flat_start sch b hb with h | ⟨m, rest, hm, h⟩
  · rw [h] at e
    have := congrArg List.length e
    simp [leBytes_length] at this
  · rw [h] at e
    have := (append_inj' (by simp [leBytes_length]) e).1
    have := leBytes_inj 4 _ _ hn (hs m hm).1 this
    exact (hs m hm).2 this.symm

/-- **C82 (partial)** messages of one type whose fields are all optional and of fixed width hash to
the same bytes only if they are equal.  Missing: strings, repeated fields, maps and nested messages,
see the `_violated` theorems. -/
theorem C82_injective_partial : ∀ (sch : List (Nat × Kind)) (a b : Fs), Flat sch a → Flat sch b →
    (∀ m ∈ sch.map (·.1), m < 256 ^ 4) → (sch.map (·.1)).Nodup → hFs a = hFs b → a = b
  | [], .nil, .nil, _, _, _, _, _ => rfl
  | (n, k) :: r, .absent m a, .absent m' b, ha, hb, hs, hn, e => by
    simp only [List.map_cons, List.nodup_cons] at hn
    have := C82_injective_partial r a b ha.2 hb.2 (fun x hx => hs x (by simp [hx])) hn.2
      (by simpa only [hFs] using e)
    rw [this, ha.1, hb.1]
  | (n, k) :: r, .opt m (.sc s) a, .opt m' (.sc s') b, ha, hb, hs, hn, e => by
    simp only [List.map_cons, List.nodup_cons] at hn
    simp only [hFs, hV, ha.1, hb.1, List.append_assoc] at e
    have e1 := (append_inj' (by simp [leBytes_length]) e).2
    have e2 := append_inj' (by rw [hSc_width ha.2.1, hSc_width hb.2.1]) e1
    have := C82_injective_partial r a b ha.2.2 hb.2.2 (fun x hx => hs x (by simp [hx])) hn.2 e2.2
    rw [this, ha.1, hb.1, hSc_inj ha.2.1 hb.2.1 e2.1]
  | (n, k) :: r, .opt m (.sc s) a, .absent m' b, ha, hb, hs, hn, e => by
    simp only [List.map_cons, List.nodup_cons] at hn
    simp only [hFs, hV, ha.1, List.append_assoc] at e
    exact absurd e (present_ne (hs n (by simp)) (fun x hx => ⟨hs x (by simp [hx]),
      fun h => hn.1 (h ▸ hx)⟩) hb.2 _)
  | (n, k) :: r, .absent m a, .opt m' (.sc s') b, ha, hb, hs, hn, e => by
    simp only [List.map_cons, List.nodup_cons] at hn
    simp only [hFs, hV, hb.1, List.append_assoc] at e
    exact absurd e.symm (present_ne (hs n (by simp)) (fun x hx => ⟨hs x (by simp [hx]),
      fun h => hn.1 (h ▸ hx)⟩) ha.2 _)
  | [], .absent _ _, _, h, _, _, _, _ => by simp [Flat] at h
  | [], .opt _ _ _, _, h, _, _, _, _ => by simp [Flat] at h
  | [], .rep _ _ _, _, h, _, _, _, _ => by simp [Flat] at h
  | [], .map _ _ _, _, h, _, _, _, _ => by simp [Flat] at h
  | [], .nil, .absent _ _, _, h, _, _, _ => by simp [Flat] at h
  | [], .nil, .opt _ _ _, _, h, _, _, _ => by simp [Flat] at h
  | [], .nil, .rep _ _ _, _, h, _, _, _ => by simp [Flat] at h
  | [], .nil, .map _ _ _, _, h, _, _, _ => by simp [Flat] at h
  | _ :: _, .nil, _, h, _, _, _, _ => by simp [Flat] at h
  | _ :: _, .opt _ (.msg _) _, _, h, _, _, _, _ => by simp [Flat] at h
  | _ :: _, .rep _ _ _, _, h, _, _, _, _ => by simp [Flat] at h
  | _ :: _, .map _ _ _, _, h, _, _, _, _ => by simp [Flat] at h
  | _ :: _, .absent _ _, .nil, _, h, _, _, _ => by simp [Flat] at h
  | _ :: _, .absent _ _, .opt _ (.msg _) _, _, h, _, _, _ => by simp [Flat] at h
  | _ :: _, .absent _ _, .rep _ _ _, _, h, _, _, _ => by simp [Flat] at h
  | _ :: _, .absent _ _, .map _ _ _, _, h, _, _, _ => by simp [Flat] at h
  | _ :: _, .opt _ (.sc _) _, .nil, _, h, _, _, _ => by simp [Flat] at h
  | _ :: _, .opt _ (.sc _) _, .opt _ (.msg _) _, _, h, _, _, _ => by simp [Flat] at h
  | _ :: _, .opt _ (.sc _) _, .rep _ _ _, _, h, _, _, _ => by simp [Flat] at h
  | _ :: _, .opt _ (.sc _) _, .map _ _ _, _, h, _, _, _ => by simp [Flat] at h

/-- A repeated string field. -/
def repStr (l : List (List Nat)) : Fs :=
  .rep 1 (l.foldr (fun s r => .cons (.sc (.str s)) r) .nil) .nil

/-- **C82 violated**: strings are hashed without their length: `["ab", "c"]` and `["a", "bc"]` have
the same hash. -/
theorem C82_strings_violated :
    hFs (repStr [[97, 98], [99]]) = hFs (repStr [[97], [98, 99]]) ∧
      repStr [[97, 98], [99]] ≠ repStr [[97], [98, 99]] := by
  refine ⟨rfl, ?_⟩
  intro h
  simp [repStr] at h

/-- **C82 violated**: repeated fields are hashed without their number: the value 7 in field 1 and
the value 7 in field 2 have the same hash. -/
theorem C82_repeated_violated :
    hFs (.rep 1 (.cons (.sc (.u32 7)) .nil) (.rep 2 .nil .nil))
      = hFs (.rep 1 .nil (.rep 2 (.cons (.sc (.u32 7)) .nil) .nil)) := rfl

/-- **C82 violated**: the end of a nested message is not marked: field 5 of the inner message and
field 5 of the outer message have the same hash. -/
theorem C82_nested_violated :
    hFs (.opt 1 (.msg (.opt 5 (.sc (.u32 7)) .nil)) (.absent 5 .nil))
      = hFs (.opt 1 (.msg (.absent 5 .nil)) (.opt 5 (.sc (.u32 7)) .nil)) := rfl

/-- `==` of two `f64` given by their bits, for zeros: plus and minus zero are equal. -/
def zeroF64 (bits : Nat) : Bool := bits % 2 ^ 63 = 0

/-- **C82 violated**: plus zero and minus zero are equal as values (so the messages are equal for
`PartialEq`), but their hashes differ. -/
theorem C82_zero_violated :
    zeroF64 0 = true ∧ zeroF64 (2 ^ 63) = true ∧
      hFs (.opt 1 (.sc (.f64 0)) .nil) ≠ hFs (.opt 1 (.sc (.f64 (2 ^ 63))) .nil) := by
  refine ⟨rfl, rfl, by decide +kernel⟩

/-- Two iterations of one map with the keys `"1"` and `"2"`. -/
example : hFs (.map 1 (.cons (.str [49]) (.sc (.u32 8)) (.cons (.str [50]) (.sc (.u32 9)) .nil)) .nil)
    = hFs (.map 1 (.cons (.str [50]) (.sc (.u32 9)) (.cons (.str [49]) (.sc (.u32 8)) .nil)) .nil) :=
  C82_same _ _ (.map 1 (.swap _ _ _ _ _) .nil) (by
    simp [Fs.Wf, Kvs.Wf, V.Wf, Kvs.keys, sameKind])

example : Flat [(1, .u32), (2, .bool)] (.opt 1 (.sc (.u32 9)) (.absent 2 .nil)) := by
  simp [Flat, Kind.Has]

end Verif.Proto
