import Verif.Proto.Handshake

/-! The bytes of a handshake and what is read from them (used by C100). -/
namespace Verif.Handshake

theorem readVarint_varint (n : Nat) (r : Bytes) : readVarint (varint n ++ r) = some (n, r) := by
  induction n using Nat.strongRecOn generalizing r with
  | ind n ih =>
    rw [varint]
    split
    · rename_i h
      simp [readVarint, h]
    · rename_i h
      simp only [List.cons_append, readVarint]
      rw [if_neg (by omega), ih (n / 128) (by omega)]
      simp only [Option.map_some]
      congr 2
      omega

theorem varint_ne (n : Nat) : varint n ≠ [] := by
  rw [varint]; split <;> simp

theorem readField_body (s r : Bytes) : readField (varint s.length ++ s ++ r) = some (s, r) := by
  unfold readField
  rw [List.append_assoc, readVarint_varint]
  simp

theorem readVarint_field (num : Nat) (s r : Bytes) :
    readVarint (field num s ++ r) = some (8 * num + 2, varint s.length ++ s ++ r) := by
  simp only [field, List.append_assoc]
  exact readVarint_varint _ _

theorem field_length (num : Nat) (s : Bytes) : s.length + 2 ≤ (field num s).length := by
  have h1 : 1 ≤ (varint (8 * num + 2)).length := List.length_pos_iff.2 (varint_ne _)
  have h2 : 1 ≤ (varint s.length).length := List.length_pos_iff.2 (varint_ne _)
  simp only [field, List.length_append]
  omega

theorem field_cons (num : Nat) (s r : Bytes) : ∃ b t, field num s ++ r = b :: t := by
  have := field_length num s
  match h : field num s ++ r with
  | [] => rw [List.append_eq_nil_iff] at h; simp [h.1] at this
  | b :: t => exact ⟨b, t, rfl⟩

theorem readData_field (n : Nat) (v s r : Bytes) : readData (n + 1) v (field 1 s ++ r) = readData n s r := by
  have h1 := readVarint_field 1 s r
  obtain ⟨b, t, hbt⟩ := field_cons 1 s r
  rw [hbt] at h1 ⊢
  simp only [readData, h1, readField_body]

theorem readData_one (v : Bytes) : readData (field 1 v).length [] (field 1 v) = some v := by
  have := field_length 1 v
  obtain ⟨n, hn⟩ : ∃ n, (field 1 v).length = n + 1 := ⟨(field 1 v).length - 1, by omega⟩
  rw [hn]
  have h := readData_field n [] v []
  rw [List.append_nil] at h
  rw [h]
  cases n <;> rfl

theorem readEntry_key (n : Nat) (kv : Bytes × Bytes) (s r : Bytes) :
    readEntry (n + 1) kv (field 1 s ++ r) = readEntry n (s, kv.2) r := by
  have h1 := readVarint_field 1 s r
  obtain ⟨b, t, hbt⟩ := field_cons 1 s r
  rw [hbt] at h1 ⊢
  simp only [readEntry, h1, readField_body]

theorem readEntry_value (n : Nat) (kv : Bytes × Bytes) (v r : Bytes) :
    readEntry (n + 1) kv (field 2 (field 1 v) ++ r) = readEntry n (kv.1, v) r := by
  have h1 := readVarint_field 2 (field 1 v) r
  obtain ⟨b, t, hbt⟩ := field_cons 2 (field 1 v) r
  rw [hbt] at h1 ⊢
  simp only [readEntry, h1, readField_body, readData_one]

theorem readEntry_one (k v : Bytes) :
    readEntry (field 1 k ++ field 2 (field 1 v)).length ([], []) (field 1 k ++ field 2 (field 1 v)) = some (k, v) := by
  have h1 := field_length 1 k
  have h2 := field_length 2 (field 1 v)
  obtain ⟨n, hn⟩ : ∃ n, (field 1 k ++ field 2 (field 1 v)).length = n + 2 :=
    ⟨(field 1 k ++ field 2 (field 1 v)).length - 2, by simp only [List.length_append]; omega⟩
  rw [hn, readEntry_key]
  have h := readEntry_value n (k, []) v []
  rw [List.append_nil] at h
  rw [h]
  cases n <;> rfl

theorem mergeFrom_field (n : Nat) (h : Hs) (num : Nat) (s r : Bytes) :
    Hs.mergeFrom (n + 1) h (field num s ++ r) =
      if 8 * num + 2 = 10 then
        (readEntry s.length ([], []) s).bind fun kv => Hs.mergeFrom n { h with metadata := hput h.metadata kv.1 kv.2 } r
      else if 8 * num + 2 = 26 then Hs.mergeFrom n { h with confNonce := s } r
      else if 8 * num + 2 = 34 then Hs.mergeFrom n { h with rtNonce := s } r
      else if 8 * num + 2 = 50 then Hs.mergeFrom n { h with reason := s } r
      else none := by
  have h1 := readVarint_field num s r
  obtain ⟨b, t, hbt⟩ := field_cons num s r
  rw [hbt] at h1 ⊢
  simp only [Hs.mergeFrom, h1, readField_body]
  cases readEntry s.length ([], []) s <;> rfl

/-- What merging does with the entries of a map, one after the other. -/
def putAll (m : List (Bytes × Bytes)) (l : List (Bytes × Bytes)) : List (Bytes × Bytes) :=
  l.foldl (fun m x => hput m x.1 x.2) m

theorem mergeFrom_nil (n : Nat) (h : Hs) : Hs.mergeFrom n h [] = some h := by cases n <;> rfl

theorem merge_meta (l : List (Bytes × Bytes)) : ∀ (n : Nat) (h : Hs) (r : Bytes),
    (l.flatMap fun x => entry x.1 x.2).length + r.length ≤ n →
    ∃ n', r.length ≤ n' ∧ Hs.mergeFrom n h ((l.flatMap fun x => entry x.1 x.2) ++ r) =
      Hs.mergeFrom n' { h with metadata := putAll h.metadata l } r := by
  induction l with
  | nil => intro n h r hn; exact ⟨n, by simpa using hn, rfl⟩
  | cons x l ih =>
    intro n h r hn
    simp only [List.flatMap_cons, List.length_append] at hn
    have hl : 2 ≤ (entry x.1 x.2).length := Nat.le_trans (by omega) (field_length 1 _)
    obtain ⟨m, rfl⟩ : ∃ m, n = m + 1 := ⟨n - 1, by omega⟩
    obtain ⟨n', hn', he⟩ := ih m { h with metadata := hput h.metadata x.1 x.2 } r (by omega)
    refine ⟨n', hn', ?_⟩
    simp only [List.flatMap_cons, List.append_assoc]
    rw [entry, mergeFrom_field, if_pos rfl, readEntry_one]
    exact he

theorem merge_opt3 (n : Nat) (h : Hs) (s r : Bytes) (hn : (optField 3 s).length + r.length ≤ n) :
    ∃ n', r.length ≤ n' ∧ Hs.mergeFrom n h (optField 3 s ++ r) =
      Hs.mergeFrom n' { h with confNonce := if s.isEmpty then h.confNonce else s } r := by
  unfold optField at hn ⊢
  split
  · rename_i he; rw [if_pos he] at hn; exact ⟨n, by simpa using hn, rfl⟩
  · rename_i he
    rw [if_neg he] at hn
    have := field_length 3 s
    obtain ⟨m, rfl⟩ : ∃ m, n = m + 1 := ⟨n - 1, by omega⟩
    exact ⟨m, by omega, by rw [mergeFrom_field]; rfl⟩

theorem merge_opt4 (n : Nat) (h : Hs) (s r : Bytes) (hn : (optField 4 s).length + r.length ≤ n) :
    ∃ n', r.length ≤ n' ∧ Hs.mergeFrom n h (optField 4 s ++ r) =
      Hs.mergeFrom n' { h with rtNonce := if s.isEmpty then h.rtNonce else s } r := by
  unfold optField at hn ⊢
  split
  · rename_i he; rw [if_pos he] at hn; exact ⟨n, by simpa using hn, rfl⟩
  · rename_i he
    rw [if_neg he] at hn
    have := field_length 4 s
    obtain ⟨m, rfl⟩ : ∃ m, n = m + 1 := ⟨n - 1, by omega⟩
    exact ⟨m, by omega, by rw [mergeFrom_field]; rfl⟩

theorem merge_opt6 (n : Nat) (h : Hs) (s r : Bytes) (hn : (optField 6 s).length + r.length ≤ n) :
    ∃ n', r.length ≤ n' ∧ Hs.mergeFrom n h (optField 6 s ++ r) =
      Hs.mergeFrom n' { h with reason := if s.isEmpty then h.reason else s } r := by
  unfold optField at hn ⊢
  split
  · rename_i he; rw [if_pos he] at hn; exact ⟨n, by simpa using hn, rfl⟩
  · rename_i he
    rw [if_neg he] at hn
    have := field_length 6 s
    obtain ⟨m, rfl⟩ : ∃ m, n = m + 1 := ⟨n - 1, by omega⟩
    exact ⟨m, by omega, by rw [mergeFrom_field]; rfl⟩

/-- Merging the bytes of one message into another: maps are merged, non-empty strings replace. -/
theorem merge_write (h g : Hs) : h.merge g.write = some
    ⟨putAll h.metadata g.metadata, if g.confNonce.isEmpty then h.confNonce else g.confNonce,
     if g.rtNonce.isEmpty then h.rtNonce else g.rtNonce, if g.reason.isEmpty then h.reason else g.reason⟩ := by
  unfold Hs.merge Hs.write
  simp only [List.append_assoc]
  obtain ⟨n1, h1, e1⟩ := merge_meta g.metadata _ h (optField 3 g.confNonce ++ (optField 4 g.rtNonce ++ optField 6 g.reason))
    (Nat.le_of_eq (List.length_append (bs := optField 3 g.confNonce ++ (optField 4 g.rtNonce ++ optField 6 g.reason))).symm)
  rw [e1]
  obtain ⟨n2, h2, e2⟩ := merge_opt3 n1 { h with metadata := putAll h.metadata g.metadata } g.confNonce
    (optField 4 g.rtNonce ++ optField 6 g.reason) (by simpa only [List.length_append] using h1)
  rw [e2]
  obtain ⟨n3, h3, e3⟩ := merge_opt4 n2 _ g.rtNonce (optField 6 g.reason) (by simpa only [List.length_append] using h2)
  rw [e3]
  have e4 := merge_opt6 n3 ⟨putAll h.metadata g.metadata,
      if g.confNonce.isEmpty then h.confNonce else g.confNonce,
      if g.rtNonce.isEmpty then h.rtNonce else g.rtNonce, h.reason⟩ g.reason [] (by simpa using h3)
  rw [List.append_nil] at e4
  obtain ⟨n4, _, e4⟩ := e4
  rw [e4, mergeFrom_nil]

theorem hput_new (m : List (Bytes × Bytes)) (k v : Bytes) (h : ∀ x ∈ m, x.1 ≠ k) : hput m k v = m ++ [(k, v)] := by
  unfold hput
  rw [List.filter_eq_self.2]
  intro x hx
  simpa using h x hx

theorem putAll_nodup (l : List (Bytes × Bytes)) : ∀ m, (m ++ l).Pairwise (fun x y => x.1 ≠ y.1) → putAll m l = m ++ l := by
  induction l with
  | nil => intro m _; simp [putAll]
  | cons x l ih =>
    intro m hp
    have h1 : ∀ y ∈ m, y.1 ≠ x.1 := fun y hy => (List.pairwise_append.1 hp).2.2 y hy x List.mem_cons_self
    have h2 : putAll m (x :: l) = putAll (m ++ [x]) l := by
      show putAll (hput m x.1 x.2) l = _
      rw [hput_new m x.1 x.2 h1]
    rw [h2, ih (m ++ [x]) (by simpa using hp)]
    simp

/-- What is read from the bytes of a handshake is the handshake. -/
theorem parse_write (h : Hs) (hm : h.metadata.Pairwise fun x y => x.1 ≠ y.1) : Hs.parse h.write = some h := by
  unfold Hs.parse
  rw [merge_write]
  have hf : ∀ s : Bytes, (if s.isEmpty then ([] : Bytes) else s) = s := by
    intro s; cases s <;> rfl
  simp only [Hs.empty, hf, putAll_nodup h.metadata [] hm, List.nil_append]

/-- The message a stream starts with, from the nonces of both pipelines. -/
theorem handshake_eq (m : List (Bytes × Bytes)) (reason : Option Bytes) (rt conf : Option Bytes) :
    handshakeRequest m reason [rtPart rt, confPart conf] = some ⟨m, conf.getD [], rt.getD [], reason.getD []⟩ := by
  have hf : ∀ s : Bytes, (if s.isEmpty then ([] : Bytes) else s) = s := by
    intro s; cases s <;> rfl
  simp only [handshakeRequest, List.foldl_cons, List.foldl_nil, Option.bind_some, merge_write]
  simp [rtPart, confPart, Hs.empty, putAll, hf]

/-! ### Metadata -/

theorem hput_keys (m : List (Bytes × Bytes)) (k v : Bytes) (h : m.Pairwise fun x y => x.1 ≠ y.1) :
    (hput m k v).Pairwise fun x y => x.1 ≠ y.1 := by
  unfold hput
  rw [List.pairwise_append]
  refine ⟨h.filter _, by simp, ?_⟩
  intro x hx y hy
  simp only [List.mem_singleton] at hy
  subst hy
  simpa using (List.mem_filter.1 hx).2

theorem collect_keys (inner : List (Bytes × Bytes)) (p : Platform) (sdk : String)
    (h : inner.Pairwise fun x y => x.1 ≠ y.1) : (collect inner p sdk).Pairwise fun x y => x.1 ≠ y.1 :=
  hput_keys _ _ _ (hput_keys _ _ _ (hput_keys _ _ _ (hput_keys _ _ _ h)))

theorem hget_put (m : List (Bytes × Bytes)) (k v j : Bytes) :
    hget (hput m k v) j = if j = k then some v else hget m j := by
  unfold hget hput
  rw [List.find?_append, List.find?_filter]
  split
  · rename_i hj
    subst hj
    have : m.find? (fun a => decide ((a.1 != j) = true ∧ (a.1 == j) = true)) = none := by
      rw [List.find?_eq_none]
      intro x _
      simp
    rw [this]
    simp
  · rename_i hj
    have : m.find? (fun a => decide ((a.1 != k) = true ∧ (a.1 == j) = true)) = m.find? (fun x => x.1 == j) := by
      congr 1
      funext a
      by_cases ha : a.1 = j
      · simp [ha, hj]
      · simp [ha]
    rw [this]
    cases m.find? (fun x => x.1 == j) with
    | some y => rfl
    | none =>
      have : (k == j) = false := by simpa using fun hh => hj hh.symm
      simp [this]

/-- The wire format, byte by byte. -/
example : Hs.write ⟨[(enc "a", enc "b")], enc "c", enc "d", enc "e"⟩ =
    [10, 8, 10, 1, 97, 18, 3, 10, 1, 98, 26, 1, 99, 34, 1, 100, 50, 1, 101] := by
  decide +kernel

end Verif.Handshake
