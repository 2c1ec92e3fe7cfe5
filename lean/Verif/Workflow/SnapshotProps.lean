import Verif.Workflow.Snapshot

/-! C102: a stored workflow state is read back exactly or not at all. -/
namespace Verif.Wf.Snap

/-! ### Laws of the coding -/

/-- What is written is read back, whatever follows; less than that, or what an error leaves behind, is not read. -/
structure Codec.Laws {α : Type} (c : Codec α) (fits : Nat → α → Prop) : Prop where
  round : ∀ mem v r, fits mem v → (c.enc v).2 = true → c.dec mem ((c.enc v).1 ++ r) = .ok v r
  short : ∀ mem v p, fits mem v → p <+: (c.enc v).1 → ((c.enc v).2 = false ∨ p ≠ (c.enc v).1) → c.dec mem p = .err

theorem le_length : ∀ k n, (le k n).length = k
  | 0, _ => rfl
  | k + 1, n => by simp [le, le_length k]

theorem unle_le : ∀ k n, n < 256 ^ k → unle (le k n) = n
  | 0, n, h => by simp at h; subst h; rfl
  | k + 1, n, h => by
    have := unle_le k (n / 256) (by rw [Nat.pow_succ] at h; omega)
    simp only [le, unle, this, UInt8.toNat_ofNat']
    omega

theorem takeN_append {k : Nat} {a r : List UInt8} (h : a.length = k) : takeN k (a ++ r) = .ok a r := by
  subst h
  unfold takeN
  rw [if_pos (by simp)]
  simp

theorem takeN_short {k : Nat} {a : List UInt8} (h : a.length < k) : takeN k a = .err := by
  unfold takeN
  rw [if_neg (by omega)]

theorem takeN_one (b : UInt8) (r : List UInt8) : takeN 1 (b :: r) = .ok [b] r := takeN_append (a := [b]) rfl

theorem prefix_cases {α : Type} {p a b : List α} (h : p <+: a ++ b) : (p <+: a ∧ p ≠ a) ∨ ∃ q, p = a ++ q ∧ q <+: b := by
  obtain ⟨t, ht⟩ := h
  rcases List.append_eq_append_iff.1 ht with ⟨x, h1, h2⟩ | ⟨x, h1, h2⟩
  · by_cases hx : x = []
    · subst hx
      exact Or.inr ⟨[], by simpa using h1.symm, List.nil_prefix⟩
    · refine Or.inl ⟨⟨x, h1.symm⟩, ?_⟩
      intro e
      rw [e] at h1
      exact hx (by simpa using h1)
  · exact Or.inr ⟨x, h1, ⟨t, h2.symm⟩⟩

theorem prefix_length {α : Type} {p a : List α} (h : p <+: a) (hne : p ≠ a) : p.length < a.length := by
  rcases Nat.lt_or_ge p.length a.length with h1 | h1
  · exact h1
  · exact absurd (h.eq_of_length (Nat.le_antisymm h.length_le h1)) hne

theorem int_laws (k : Nat) : (int k).Laws fun _ n => n < 256 ^ k where
  round mem v r h _ := by
    simp only [int, takeN_append (le_length k v), Dec.bind, unle_le k v h]
  short mem v p h hp hs := by
    have hne : p ≠ le k v := by
      rcases hs with hs | hs
      · cases hs
      · exact hs
    have := prefix_length hp hne
    simp only [int, le_length] at this
    simp only [int, takeN_short this, Dec.bind]

theorem bool_laws : bool.Laws fun _ _ => True where
  round mem v r _ _ := by
    simp only [bool, List.singleton_append, takeN_one, Dec.bind]
    cases v <;> simp
  short mem v p _ hp hs := by
    have hne : p ≠ [if v then 1 else 0] := by
      rcases hs with hs | hs
      · cases hs
      · exact hs
    have := prefix_length hp hne
    simp only [bool, List.length_singleton] at this
    simp only [bool, takeN_short this, Dec.bind]

theorem strOf_bytes (s : String) : strOf (strBytes s) = some s := by
  unfold strOf strBytes String.fromUTF8?
  simp only [Array.toArray_toList]
  exact dif_pos s.isValidUTF8

/-- A string that fits into memory. -/
def strFits (mem : Nat) (s : String) : Prop := (strBytes s).length ≤ mem ∧ (strBytes s).length < 2 ^ 64

theorem str_laws : str.Laws strFits where
  round mem v r h _ := by
    obtain ⟨h1, h2⟩ := h
    simp only [str]
    rw [List.append_assoc, takeN_append (le_length _ _)]
    simp only [Dec.bind, unle_le 8 _ (show (strBytes v).length < 256 ^ 8 by omega)]
    rw [if_neg (by omega), takeN_append rfl]
    simp only [strOf_bytes]
  short mem v p h hp hs := by
    obtain ⟨h1, h2⟩ := h
    have hne : p ≠ le 8 (strBytes v).length ++ strBytes v := by
      rcases hs with hs | hs
      · cases hs
      · exact hs
    simp only [str] at hp ⊢
    rcases prefix_cases hp with ⟨h3, h4⟩ | ⟨q, rfl, hq⟩
    · have := prefix_length h3 h4
      rw [le_length] at this
      simp only [takeN_short this, Dec.bind]
    · have hq' : q ≠ strBytes v := fun e => hne (by rw [e])
      have := prefix_length hq hq'
      rw [takeN_append (le_length _ _)]
      simp only [Dec.bind, unle_le 8 _ (show (strBytes v).length < 256 ^ 8 by omega)]
      rw [if_neg (by omega), takeN_short this]

theorem andThen_round {α β : Type} {c : Codec α} {f : Nat → α → Prop} (hc : c.Laws f) {mem : Nat} {v : α} {b : List UInt8 × Bool} {r : List UInt8}
    (h : f mem v) (h2 : (andThen (c.enc v) b).2 = true) (k : α → List UInt8 → Dec β) :
    (c.dec mem ((andThen (c.enc v) b).1 ++ r)).bind k = k v (b.1 ++ r) ∧ b.2 = true := by
  unfold andThen at h2 ⊢
  split at h2
  · rename_i e
    rw [if_pos e]
    refine ⟨?_, h2⟩
    show (c.dec mem ((c.enc v).1 ++ b.1 ++ r)).bind k = _
    rw [List.append_assoc, hc.round mem v _ h e]
    rfl
  · rename_i e
    exact absurd h2 e

theorem andThen_short {α β : Type} {c : Codec α} {f : Nat → α → Prop} (hc : c.Laws f) {mem : Nat} {v : α} {b : List UInt8 × Bool} {p : List UInt8}
    (h : f mem v) (hp : p <+: (andThen (c.enc v) b).1) (hs : (andThen (c.enc v) b).2 = false ∨ p ≠ (andThen (c.enc v) b).1)
    (k : α → List UInt8 → Dec β)
    (hk : ∀ q, q <+: b.1 → (b.2 = false ∨ q ≠ b.1) → k v q = .err) :
    (c.dec mem p).bind k = .err := by
  unfold andThen at hp hs
  by_cases e : (c.enc v).2 = true
  · rw [if_pos e] at hp hs
    rcases prefix_cases hp with ⟨h1, h2⟩ | ⟨q, rfl, hq⟩
    · rw [hc.short mem v p h h1 (Or.inr h2)]
      rfl
    · rw [hc.round mem v q h e]
      refine hk q hq ?_
      rcases hs with hs | hs
      · exact Or.inl hs
      · exact Or.inr fun e => hs (by rw [e])
  · rw [if_neg e] at hp hs
    rw [hc.short mem v p h hp (Or.inl (by simpa using e))]
    rfl

theorem pair_laws {α β : Type} {c : Codec α} {d : Codec β} {f : Nat → α → Prop} {g : Nat → β → Prop} (hc : c.Laws f) (hd : d.Laws g) :
    (pair c d).Laws fun mem v => f mem v.1 ∧ g mem v.2 where
  round mem v r h h2 := by
    obtain ⟨e1, e2⟩ := andThen_round (r := r) hc h.1 h2 (fun x r => (d.dec mem r).bind fun y r' => Dec.ok (x, y) r')
    show (c.dec mem ((andThen (c.enc v.1) (d.enc v.2)).1 ++ r)).bind _ = _
    rw [e1, hd.round mem v.2 r h.2 e2]
    rfl
  short mem v p h hp hs := by
    refine andThen_short hc h.1 hp hs _ ?_
    intro q hq hs'
    rw [hd.short mem v.2 q h.2 hq hs']
    rfl

theorem as_laws {α β : Type} {c : Codec α} {f : Nat → α → Prop} (hc : c.Laws f) (to : α → β) (of : β → α) (ok : β → Prop) (h : ∀ v, ok v → to (of v) = v) :
    (c.as to of).Laws fun mem v => ok v ∧ f mem (of v) where
  round mem v r hv h2 := by
    show ((c.dec mem ((c.enc (of v)).1 ++ r)).map to) = _
    rw [hc.round mem _ r hv.2 h2]
    simp only [Dec.map, Dec.bind, h v hv.1]
  short mem v p hv hp hs := by
    show (c.dec mem p).map to = _
    rw [hc.short mem (of v) p hv.2 hp hs]
    rfl

theorem opt_laws {α : Type} {c : Codec α} {f : Nat → α → Prop} (hc : c.Laws f) : (opt c).Laws fun mem v => ∀ x, v = some x → f mem x where
  round mem v r h h2 := by
    cases v with
    | none => simp [opt, takeN_one, Dec.bind]
    | some v =>
      have h2 : (c.enc v).2 = true := by simpa [opt, andThen] using h2
      simp only [opt, andThen, if_true, List.cons_append, List.nil_append, takeN_one, Dec.bind]
      rw [if_neg (by decide), hc.round mem v r (h v rfl) h2]
      rfl
  short mem v p h hp hs := by
    have hnil : p = [] → (opt c).dec mem p = .err := by
      intro e
      rw [e]
      rfl
    cases p with
    | nil => exact hnil rfl
    | cons b p =>
      cases v with
      | none =>
        simp only [opt] at hp hs
        obtain ⟨rfl, h2⟩ := List.cons_prefix_cons.1 hp
        rw [List.prefix_nil.1 h2] at hs
        simp at hs
      | some v =>
        simp only [opt, andThen, if_true, List.cons_append, List.nil_append] at hp hs
        obtain ⟨rfl, h2⟩ := List.cons_prefix_cons.1 hp
        simp only [opt, takeN_one, Dec.bind]
        rw [if_neg (by decide), if_pos trivial, hc.short mem v p (h v rfl) h2]
        · rfl
        · rcases hs with hs | hs
          · exact Or.inl hs
          · exact Or.inr fun e => hs (by rw [e])

theorem decN_round {α : Type} {c : Codec α} {f : Nat → α → Prop} (hc : c.Laws f) (mem : Nat) : ∀ (l : List α) (r : List UInt8), (∀ v ∈ l, f mem v) →
    (encAll c l).2 = true → decN c mem l.length ((encAll c l).1 ++ r) = .ok l r
  | [], r, _, _ => rfl
  | v :: l, r, h, h2 => by
    obtain ⟨e1, e2⟩ := andThen_round (r := r) hc (h v (by simp)) h2 (fun v r => (decN c mem l.length r).map (v :: ·))
    show (c.dec mem ((andThen (c.enc v) (encAll c l)).1 ++ r)).bind _ = _
    rw [e1, decN_round hc mem l r (fun x hx => h x (by simp [hx])) e2]
    rfl

theorem decN_short {α : Type} {c : Codec α} {f : Nat → α → Prop} (hc : c.Laws f) (mem : Nat) : ∀ (l : List α) (p : List UInt8), (∀ v ∈ l, f mem v) →
    p <+: (encAll c l).1 → ((encAll c l).2 = false ∨ p ≠ (encAll c l).1) → decN c mem l.length p = .err
  | [], p, _, hp, hs => by
    have hp : p <+: [] := hp
    rcases hs with hs | hs
    · cases hs
    · exact absurd (List.prefix_nil.1 hp) hs
  | v :: l, p, h, hp, hs => by
    refine andThen_short hc (h v (by simp)) hp hs (fun v r => (decN c mem l.length r).map (v :: ·)) ?_
    intro q hq hs'
    rw [decN_short hc mem l q (fun x hx => h x (by simp [hx])) hq hs']
    rfl

theorem seq_laws {α : Type} {c : Codec α} {f : Nat → α → Prop} (hc : c.Laws f) : (seq c).Laws fun mem l => l.length < 2 ^ 64 ∧ ∀ v ∈ l, f mem v where
  round mem l r h h2 := by
    have h2 : (encAll c l).2 = true := by simpa only [seq, andThen, if_true] using h2
    have hl : unle (le 8 l.length) = l.length := unle_le 8 _ (by have := h.1; omega)
    simp only [seq, andThen, if_true, List.append_assoc, takeN_append (le_length _ _), Dec.bind, hl]
    exact decN_round hc mem l r h.2 h2
  short mem l p h hp hs := by
    have hl : unle (le 8 l.length) = l.length := unle_le 8 _ (by have := h.1; omega)
    simp only [seq, andThen, if_true] at hp hs ⊢
    rcases prefix_cases hp with ⟨h1, h2⟩ | ⟨q, rfl, hq⟩
    · have := prefix_length h1 h2
      rw [le_length] at this
      rw [takeN_short this]
      rfl
    · simp only [takeN_append (le_length _ _), Dec.bind, hl]
      refine decN_short hc mem l q h.2 hq ?_
      rcases hs with hs | hs
      · exact Or.inl hs
      · exact Or.inr fun e => hs (by rw [e])

/-- A `BTreeSet` is in its order. -/
def Sorted {α : Type} (cmp : α → α → Ordering) (l : List α) : Prop := l.Pairwise fun a b => cmp b a = .gt

theorem insertBy_last {α : Type} (cmp : α → α → Ordering) (x : α) : ∀ l : List α, (∀ y ∈ l, cmp x y = .gt) → insertBy cmp x l = l ++ [x]
  | [], _ => rfl
  | y :: l, h => by
    simp only [insertBy, h y (by simp), List.cons_append]
    rw [insertBy_last cmp x l fun z hz => h z (by simp [hz])]

theorem insertKey_last {α β : Type} (cmp : α → α → Ordering) (x : α × β) : ∀ l : List (α × β), (∀ y ∈ l, cmp x.1 y.1 = .gt) → insertKey cmp x l = l ++ [x]
  | [], _ => rfl
  | y :: l, h => by
    simp only [insertKey, h y (by simp), List.cons_append]
    rw [insertKey_last cmp x l fun z hz => h z (by simp [hz])]

theorem fold_sorted {α : Type} (ins : α → List α → List α) (R : α → α → Prop) (hi : ∀ x l, (∀ y ∈ l, R y x) → ins x l = l ++ [x]) :
    ∀ (l acc : List α), (acc ++ l).Pairwise R → l.foldl (fun s x => ins x s) acc = acc ++ l
  | [], acc, _ => by simp
  | x :: l, acc, h => by
    have h1 := List.pairwise_append.1 h
    rw [List.foldl_cons, hi x acc fun y hy => h1.2.2 y hy x (by simp), fold_sorted ins R hi l (acc ++ [x]) (by simpa using h)]
    simp

theorem set_laws {α : Type} (cmp : α → α → Ordering) {c : Codec α} {f : Nat → α → Prop} (hc : c.Laws f) :
    (set cmp c).Laws fun mem l => Sorted cmp l ∧ l.length < 2 ^ 64 ∧ ∀ v ∈ l, f mem v :=
  as_laws (seq_laws hc) _ _ (Sorted cmp) fun l h => by
    have := fold_sorted (insertBy cmp) (fun a b => cmp b a = .gt) (fun x l h => insertBy_last cmp x l h) l [] h
    simpa using this

theorem dict_laws {α β : Type} (cmp : α → α → Ordering) {c : Codec α} {d : Codec β} {f : Nat → α → Prop} {g : Nat → β → Prop} (hc : c.Laws f)
    (hd : d.Laws g) :
    (dict cmp c d).Laws fun mem l => Sorted (fun a b : α × β => cmp a.1 b.1) l ∧ l.length < 2 ^ 64 ∧ ∀ v ∈ l, f mem v.1 ∧ g mem v.2 :=
  as_laws (seq_laws (pair_laws hc hd)) _ _ (Sorted fun a b : α × β => cmp a.1 b.1) fun l h => by
    have := fold_sorted (insertKey cmp) (fun a b => cmp b.1 a.1 = .gt) (fun x l h => insertKey_last cmp x l h) l [] h
    simpa using this

/-- Times a `SystemTime` can hold. -/
def timeFits (_ : Nat) (t : Int) : Prop := t < 2 ^ 63 * 10 ^ 9

theorem time_laws : time.Laws timeFits where
  round mem t r h h2 := by
    unfold timeFits at h
    simp only [time] at h2 ⊢
    split at h2
    · cases h2
    · rename_i h0
      rw [if_neg h0]
      show ((pair (int 8) (int 4)).dec mem (((pair (int 8) (int 4)).enc (t.toNat / 10 ^ 9, t.toNat % 10 ^ 9)).1 ++ r)).bind _ = _
      rw [(pair_laws (int_laws 8) (int_laws 4)).round mem _ r ⟨by show _ < 256 ^ 8; dsimp only; omega, by show _ < 256 ^ 4; dsimp only; omega⟩ rfl]
      simp only [Dec.bind]
      rw [if_pos (by omega)]
      congr 1
      omega
  short mem t p h hp hs := by
    unfold timeFits at h
    by_cases h0 : t < 0
    · simp only [time, if_pos h0] at hp ⊢
      rw [List.prefix_nil.1 hp]
      rfl
    · simp only [time, if_neg h0] at hp hs ⊢
      rw [(pair_laws (int_laws 8) (int_laws 4)).short mem (t.toNat / 10 ^ 9, t.toNat % 10 ^ 9) p
        ⟨by show _ < 256 ^ 8; dsimp only; omega, by show _ < 256 ^ 4; dsimp only; omega⟩ hp hs]
      rfl

/-! ### The stored types -/

theorem Codec.Laws.mono {α : Type} {c : Codec α} {f g : Nat → α → Prop} (hc : c.Laws f) (h : ∀ mem v, g mem v → f mem v) : c.Laws g where
  round mem v r hv := hc.round mem v r (h mem v hv)
  short mem v p hv := hc.short mem v p (h mem v hv)

/-- A list of any things that fit. -/
def listFits {α : Type} (f : Nat → α → Prop) (mem : Nat) (l : List α) : Prop := l.length < 2 ^ 64 ∧ ∀ v ∈ l, f mem v

/-- A set of strings. -/
def setFits (mem : Nat) (l : List String) : Prop := Sorted cmpStr l ∧ listFits strFits mem l

def sankeyFits (mem : Nat) (s : Sankey) : Prop := listFits (fun mem n => strFits mem n.value) mem s.nodes

def travFits (mem : Nat) (t : Traversal) : Prop :=
  t.state < 2 ^ 64 ∧ listFits (fun _ n => n < 2 ^ 32) mem t.counts ∧ Sorted (fun a b : String × Sankey => cmpStr a.1 b.1) t.sankeys ∧
    listFits (fun mem v => strFits mem v.1 ∧ sankeyFits mem v.2) mem t.sankeys

def runFits (mem : Nat) (r : SRun) : Prop :=
  listFits travFits mem r.traversals ∧ r.matched < 2 ^ 32 ∧ ∀ t, r.first = some t → t < 2 ^ 63 * 10 ^ 9

def streamingFits (mem : Nat) (s : StreamCfg) : Prop := setFits mem s.dests ∧ ∀ n, s.max = some n → n < 2 ^ 64

def pendingFits (mem : Nat) (p : Pending) : Prop :=
  strFits mem p.id ∧ strFits mem p.session ∧ setFits mem p.triggers ∧ ∀ s, p.streaming = some s → streamingFits mem s

def streamFits (mem : Nat) (s : Stream) : Prop :=
  strFits mem s.id ∧ strFits mem s.session ∧ setFits mem s.sources ∧ setFits mem s.dests ∧ (∀ n, s.max = some n → n < 2 ^ 64) ∧ s.count < 2 ^ 64

/-- The states there are: numbers in the range of their types, sets and maps in their order, strings no larger than the memory. -/
def Snap.Fits (mem : Nat) (s : Snap) : Prop :=
  strFits mem s.session ∧ listFits (fun mem w => strFits mem w.id ∧ listFits runFits mem w.runs) mem s.workflows ∧
  (Sorted cmpPending s.pending ∧ listFits pendingFits mem s.pending) ∧ listFits streamFits mem s.streams

/-- No run began before 1970. -/
def Snap.Timely (s : Snap) : Prop := ∀ w ∈ s.workflows, ∀ r ∈ w.runs, ∀ t, r.first = some t → 0 ≤ t

theorem node_laws : node.Laws fun mem n => strFits mem n.value :=
  (as_laws (pair_laws str_laws bool_laws) _ _ (fun _ => True) (fun _ _ => rfl)).mono fun _ _ h => ⟨trivial, h, trivial⟩

theorem sankey_laws : sankey.Laws sankeyFits :=
  (as_laws (pair_laws (seq_laws node_laws) bool_laws) _ _ (fun _ => True) (fun _ _ => rfl)).mono fun _ _ h => ⟨trivial, h, trivial⟩

theorem sankeys_laws : sankeys.Laws fun mem l => Sorted (fun a b : String × Sankey => cmpStr a.1 b.1) l ∧
    listFits (fun mem v => strFits mem v.1 ∧ sankeyFits mem v.2) mem l :=
  (as_laws (opt_laws (dict_laws cmpStr str_laws sankey_laws)) _ _ (fun _ => True) (fun v _ => by cases v <;> rfl)).mono fun _ v h => ⟨trivial, by
    intro x hx
    split at hx
    · cases hx
    · cases hx; exact h⟩

theorem traversal_laws : traversal.Laws travFits :=
  (as_laws (pair_laws (int_laws 8) (pair_laws (seq_laws (int_laws 4)) sankeys_laws)) _ _ (fun _ => True) (fun _ _ => rfl)).mono fun _ _ h =>
    ⟨trivial, by have := h.1; dsimp only; omega, ⟨h.2.1.1, fun v hv => by have := h.2.1.2 v hv; omega⟩, h.2.2⟩

theorem run_laws : run.Laws runFits :=
  (as_laws (pair_laws (seq_laws traversal_laws) (pair_laws (int_laws 4) (opt_laws time_laws))) _ _ (fun _ => True) (fun _ _ => rfl)).mono fun _ _ h =>
    ⟨trivial, h.1, by have := h.2.1; dsimp only; omega, h.2.2⟩

theorem workflow_laws : workflow.Laws fun mem w => strFits mem w.id ∧ listFits runFits mem w.runs :=
  (as_laws (pair_laws str_laws (seq_laws run_laws)) _ _ (fun _ => True) (fun _ _ => rfl)).mono fun _ _ h => ⟨trivial, h⟩

theorem strs_laws : (set cmpStr str).Laws setFits := set_laws cmpStr str_laws

theorem opt8_laws : (opt (int 8)).Laws fun _ v => ∀ n, v = some n → n < 2 ^ 64 :=
  (opt_laws (int_laws 8)).mono fun _ _ h x hx => by have := h x hx; omega

theorem streaming_laws : streaming.Laws streamingFits :=
  (as_laws (pair_laws strs_laws opt8_laws) _ _ (fun _ => True) (fun _ _ => rfl)).mono fun _ _ h => ⟨trivial, h⟩

theorem pending_laws : pending.Laws pendingFits :=
  (as_laws (pair_laws str_laws (pair_laws str_laws (pair_laws strs_laws (opt_laws streaming_laws)))) _ _ (fun _ => True) (fun _ _ => rfl)).mono
    fun _ _ h => ⟨trivial, h⟩

theorem stream_laws : stream.Laws streamFits :=
  (as_laws (pair_laws str_laws (pair_laws str_laws (pair_laws strs_laws (pair_laws strs_laws (pair_laws opt8_laws (int_laws 8)))))) _ _
    (fun _ => True) (fun _ _ => rfl)).mono
    fun _ _ h => ⟨trivial, h.1, h.2.1, h.2.2.1, h.2.2.2.1, h.2.2.2.2.1, by have := h.2.2.2.2.2; dsimp only; omega⟩

theorem snap_laws : snap.Laws Snap.Fits :=
  (as_laws (pair_laws str_laws (pair_laws (seq_laws workflow_laws) (pair_laws (set_laws cmpPending pending_laws) (seq_laws stream_laws)))) _ _
    (fun _ => True) (fun _ _ => rfl)).mono fun _ _ h => ⟨trivial, h⟩

/-! ### When writing succeeds -/

theorem andThen_true (a b : List UInt8 × Bool) : (andThen a b).2 = (a.2 && b.2) := by
  unfold andThen
  cases h : a.2 <;> simp [h]

theorem encAll_true {α : Type} (c : Codec α) (l : List α) : (encAll c l).2 = l.all fun v => (c.enc v).2 := by
  induction l with
  | nil => rfl
  | cons v l ih => simp only [encAll, andThen_true, ih, List.all_cons]

theorem seq_true {α : Type} (c : Codec α) (l : List α) : ((seq c).enc l).2 = l.all fun v => (c.enc v).2 := by
  simp only [seq, andThen_true, encAll_true, Bool.true_and]

theorem opt_true {α : Type} (c : Codec α) (h : ∀ v, (c.enc v).2 = true) (v : Option α) : ((opt c).enc v).2 = true := by
  cases v with
  | none => rfl
  | some v => simp only [opt, andThen_true, h, Bool.true_and]

theorem set_true {α : Type} (cmp : α → α → Ordering) (c : Codec α) (h : ∀ v, (c.enc v).2 = true) (l : List α) : ((set cmp c).enc l).2 = true := by
  show ((seq c).enc l).2 = true
  rw [seq_true]
  simp [h]

theorem sankeys_true (l : Sankeys) : (sankeys.enc l).2 = true := by
  refine opt_true _ ?_ _
  intro v
  show ((seq (pair str sankey)).enc v).2 = true
  rw [seq_true]
  simp only [List.all_eq_true]
  intro x _
  show (andThen (str.enc x.1) (sankey.enc x.2)).2 = true
  rw [andThen_true]
  show (true && (andThen ((seq node).enc x.2.nodes) (bool.enc x.2.trimmed)).2) = true
  rw [andThen_true, seq_true]
  simp only [Bool.true_and, Bool.and_eq_true, List.all_eq_true]
  exact ⟨fun y _ => rfl, rfl⟩

theorem traversal_true (t : Traversal) : (traversal.enc t).2 = true := by
  show (andThen ((int 8).enc t.state) (andThen ((seq (int 4)).enc t.counts) (sankeys.enc t.sankeys))).2 = true
  rw [andThen_true, andThen_true, seq_true, sankeys_true]
  simp [int]

theorem run_true (r : SRun) : (run.enc r).2 = true ↔ ∀ t, r.first = some t → 0 ≤ t := by
  show (andThen ((seq traversal).enc r.traversals) (andThen ((int 4).enc r.matched) ((opt time).enc r.first))).2 = true ↔ _
  rw [andThen_true, andThen_true, seq_true]
  have h1 : (r.traversals.all fun v => (traversal.enc v).2) = true := by simp [traversal_true]
  rw [h1]
  cases r.first with
  | none => simp [int, opt]
  | some t =>
    simp only [int, opt, andThen_true, time, Bool.true_and, Option.some.injEq, forall_eq']
    split
    · simp; omega
    · simp; omega

theorem workflows_true (s : Snap) : ((seq workflow).enc s.workflows).2 = true ↔ s.Timely := by
  rw [seq_true, List.all_eq_true]
  unfold Snap.Timely
  refine forall₂_congr fun w _ => ?_
  show (andThen (str.enc w.id) ((seq run).enc w.runs)).2 = true ↔ _
  rw [andThen_true, seq_true]
  show (true && w.runs.all fun v => (run.enc v).2) = true ↔ _
  rw [Bool.true_and, List.all_eq_true]
  exact forall₂_congr fun r _ => run_true r

theorem strs_true (l : List String) : ((set cmpStr str).enc l).2 = true := set_true _ _ (fun _ => rfl) l

theorem opt8_true (v : Option Nat) : ((opt (int 8)).enc v).2 = true := opt_true _ (fun _ => rfl) v

theorem pending_true (p : Pending) : (pending.enc p).2 = true := by
  show (andThen (str.enc p.id) (andThen (str.enc p.session) (andThen ((set cmpStr str).enc p.triggers) ((opt streaming).enc p.streaming)))).2 = true
  rw [andThen_true, andThen_true, andThen_true, strs_true, opt_true]
  · rfl
  · intro v
    show (andThen ((set cmpStr str).enc v.dests) ((opt (int 8)).enc v.max)).2 = true
    rw [andThen_true, strs_true, opt8_true]
    rfl

theorem stream_true (p : Stream) : (stream.enc p).2 = true := by
  show (andThen (str.enc p.id) (andThen (str.enc p.session) (andThen ((set cmpStr str).enc p.sources) (andThen ((set cmpStr str).enc p.dests)
    (andThen ((opt (int 8)).enc p.max) ((int 8).enc p.count)))))).2 = true
  rw [andThen_true, andThen_true, andThen_true, andThen_true, andThen_true, strs_true, strs_true, opt8_true]
  rfl

theorem snap_true (s : Snap) : (snap.enc s).2 = true ↔ s.Timely := by
  show (andThen (str.enc s.session) (andThen ((seq workflow).enc s.workflows) (andThen ((set cmpPending pending).enc s.pending) ((seq stream).enc s.streams)))).2 = true ↔ _
  rw [andThen_true, andThen_true, andThen_true, set_true _ _ pending_true, seq_true stream]
  have h1 : (s.streams.all fun v => (stream.enc v).2) = true := by simp [stream_true]
  rw [h1, ← workflows_true]
  simp [str]

/-! ### C102 -/

/-- C102, the format: a state without a time before 1970 is read back as it was written; less than all of its bytes, or a state with such a time, is not read. -/
theorem C102_format (mem : Nat) (s : Snap) (h : s.Fits mem) :
    (s.Timely → (snap.enc s).2 = true ∧ ∀ r, snap.dec mem ((snap.enc s).1 ++ r) = .ok s r) ∧
    (∀ n, n < (snap.enc s).1.length ∨ ¬ s.Timely → snap.dec mem ((snap.enc s).1.take n) = .err) := by
  refine ⟨fun ht => ⟨(snap_true s).2 ht, fun r => snap_laws.round mem s r h ((snap_true s).2 ht)⟩, ?_⟩
  intro n hn
  refine snap_laws.short mem s _ h (List.take_prefix _ _) ?_
  rcases hn with hn | hn
  · right
    intro e
    have := congrArg List.length e
    rw [List.length_take] at this
    omega
  · left
    rw [← snap_true] at hn
    simpa using hn

/-- What an observer of the calls expects of the file: the state it holds, if it holds one; the time of the last success; whether the process is alive. -/
structure View where
  held : Option Snap := none
  last : Option Nat := none
  dead : Bool := false

open Classical in
/-- The state that a write leaves behind. -/
noncomputable def left (held : Option Snap) (s : Snap) : Wr → Option Snap
  | .noFile => held
  | .cut n => if (snap.enc s).1.length ≤ n ∧ s.Timely then some s else none
  | .die n => if (snap.enc s).1.length ≤ n ∧ s.Timely then some s else none
  | .fine => if s.Timely then some s else none

open Classical in
noncomputable def View.step (v : View) : Op → View
  | .boot => { held := v.held }
  | .save s force now interval w =>
    if v.dead = true ∨ (force = false ∧ ∃ l, v.last = some l ∧ now - l < interval) then v
    else
      { held := left v.held s w
        last := if w = .fine ∧ s.Timely then some now else v.last
        dead := decide (∃ n, w = .die n) }
  | .load opens remove =>
    if v.dead = true then v else { v with held := if opens = false ∧ remove = true then none else v.held }

noncomputable def View.run (v : View) (ops : List Op) : View := ops.foldl View.step v

/-- The file holds the state, or nothing that can be read. -/
def Rep (mem : Nat) (f : Option (List UInt8)) : Option Snap → Prop
  | none => ∀ b, f = some b → snap.dec mem b = .err
  | some s => f = some (snap.enc s).1 ∧ s.Timely ∧ s.Fits mem

theorem Rep.take {mem : Nat} {s : Snap} (h : s.Fits mem) (n : Nat) :
    ((snap.enc s).1.length ≤ n ∧ s.Timely → Rep mem (some ((snap.enc s).1.take n)) (some s)) ∧
    (¬ ((snap.enc s).1.length ≤ n ∧ s.Timely) → Rep mem (some ((snap.enc s).1.take n)) none) := by
  refine ⟨?_, ?_⟩
  · intro hn
    exact ⟨by rw [List.take_of_length_le hn.1], hn.2, h⟩
  · intro hn b hb
    cases hb
    refine (C102_format mem s h).2 n ?_
    by_cases ht : s.Timely
    · exact Or.inl (Nat.lt_of_not_le fun x => hn ⟨x, ht⟩)
    · exact Or.inr ht

theorem Rep.write {mem : Nat} {f : Option (List UInt8)} {d : Option Snap} (hr : Rep mem f d) {s : Snap} (h : s.Fits mem) (w : Wr) :
    Rep mem (write f s w).1 (left d s w) := by
  cases w with
  | noFile => exact hr
  | cut n =>
    simp only [Snap.write, left]
    split
    · rename_i hn; exact (Rep.take h n).1 hn
    · rename_i hn; exact (Rep.take h n).2 hn
  | die n =>
    simp only [Snap.write, left]
    split
    · rename_i hn; exact (Rep.take h n).1 hn
    · rename_i hn; exact (Rep.take h n).2 hn
  | fine =>
    simp only [Snap.write, left]
    have e : (snap.enc s).1 = (snap.enc s).1.take (snap.enc s).1.length := by simp
    split
    · rename_i ht
      exact ⟨rfl, ht, h⟩
    · rename_i ht
      have := (Rep.take h (snap.enc s).1.length).2 fun x => ht x.2
      rwa [← e] at this

theorem due_iff (t : Store) (force : Bool) (now interval : Nat) :
    (t.due force now interval = false ↔ force = false ∧ ∃ l, t.last = some l ∧ now - l < interval) := by
  unfold Store.due
  cases force <;> cases t.last <;> simp

structure Tie (mem : Nat) (t : Store) (v : View) : Prop where
  file : Rep mem t.file v.held
  last : t.last = v.last
  dead : t.dead = v.dead

theorem Rep.load {mem : Nat} {f : Option (List UInt8)} {d : Option Snap} (hr : Rep mem f d) : ∀ b, f = some b →
    (d = none ∧ snap.dec mem b = .err) ∨ ∃ s, d = some s ∧ snap.dec mem b = .ok s [] := by
  intro b hb
  cases d with
  | none => exact Or.inl ⟨rfl, hr b hb⟩
  | some s =>
    obtain ⟨h1, h2, h3⟩ := hr
    rw [hb] at h1
    cases h1
    have := ((C102_format mem s h3).1 h2).2 []
    rw [List.append_nil] at this
    exact Or.inr ⟨s, rfl, this⟩

theorem Tie.step {mem : Nat} {t : Store} {v : View} (h : Tie mem t v) (op : Op)
    (ho : ∀ s f n i w, op = .save s f n i w → s.Fits mem) : Tie mem (t.step mem op) (v.step op) := by
  cases op with
  | boot => exact ⟨h.file, rfl, rfl⟩
  | save s force now interval w =>
    have hs := ho s force now interval w rfl
    simp only [Store.step, View.step]
    by_cases hd : v.dead = true
    · rw [if_pos (by rw [h.dead]; exact hd), if_pos (Or.inl hd)]
      exact h
    · rw [if_neg (by rw [h.dead]; exact hd)]
      by_cases hdue : force = false ∧ ∃ l, v.last = some l ∧ now - l < interval
      · rw [if_pos (Or.inr hdue)]
        obtain ⟨hf, l, hl, hn⟩ := hdue
        have : t.save s force now interval w = t := by
          have := (due_iff t force now interval).2 ⟨hf, l, h.last.trans hl, hn⟩
          simp [Store.save, this]
        rw [this]
        exact h
      · rw [if_neg (by intro x; rcases x with x | x; exact hd x; exact hdue x)]
        have hdue' : t.due force now interval = true := by
          rw [← Bool.not_eq_false, due_iff, h.last]
          exact hdue
        simp only [Store.save, hdue', if_true]
        have hw := Rep.write h.file hs w
        cases w with
        | noFile => exact ⟨hw, by simpa [Snap.write] using h.last, by simpa [Snap.write] using (show t.dead = false by rw [h.dead]; simpa using hd)⟩
        | cut n => exact ⟨hw, by simpa [Snap.write] using h.last, by simpa [Snap.write] using (show t.dead = false by rw [h.dead]; simpa using hd)⟩
        | die n => exact ⟨hw, by simpa [Snap.write] using h.last, by simp [Snap.write]⟩
        | fine =>
          have hdead : t.dead = false := by rw [h.dead]; simpa using hd
          by_cases ht : s.Timely
          · have e := (snap_true s).2 ht
            simp only [Snap.write, e] at hw ⊢
            exact ⟨hw, by simp [ht], by simpa using hdead⟩
          · have e : (snap.enc s).2 = false := by
              rw [← snap_true] at ht
              simpa using ht
            simp only [Snap.write, e] at hw ⊢
            exact ⟨hw, by simpa [ht] using h.last, by simpa using hdead⟩
  | load opens remove =>
    simp only [Store.step, View.step]
    by_cases hd : v.dead = true
    · rw [if_pos (by rw [h.dead]; exact hd), if_pos hd]
      exact h
    · rw [if_neg (by rw [h.dead]; exact hd), if_neg hd]
      have hnone : Rep mem none none := fun b hb => by cases hb
      simp only [Store.load]
      split
      · rename_i hf
        refine ⟨?_, h.last, h.dead⟩
        rw [hf]
        split
        · exact hnone
        · have := h.file
          rwa [hf] at this
      · rename_i b hf
        rcases Rep.load h.file b hf with ⟨e1, e2⟩ | ⟨s, e1, e2⟩
        · have e3 : (if opens = true then snap.dec mem b else Dec.err) = Dec.err := by rw [e2]; simp
          rw [e3]
          refine ⟨?_, h.last, h.dead⟩
          dsimp only
          rw [e1]
          cases remove with
          | true => simp only [if_true]; split <;> exact hnone
          | false =>
            have := h.file
            rw [e1, hf] at this
            simpa using this
        · cases opens with
          | true =>
            simp only [if_true, e2]
            refine ⟨?_, h.last, h.dead⟩
            simpa using h.file
          | false =>
            refine ⟨?_, h.last, h.dead⟩
            cases remove with
            | true => simpa using hnone
            | false =>
              have := h.file
              rw [hf] at this
              simpa using this

theorem Tie.run {mem : Nat} (ops : List Op) : ∀ {t : Store} {v : View}, Tie mem t v →
    (∀ op ∈ ops, ∀ s f n i w, op = .save s f n i w → s.Fits mem) → Tie mem (t.run mem ops) (v.run ops) := by
  induction ops with
  | nil => intro t v h _; exact h
  | cons op ops ih => intro t v h ho; exact ih (Tie.step h op (ho op (by simp))) fun x hx => ho x (by simp [hx])

/-- C102: whatever was written, whatever failed and wherever processes died: reading returns the state the observer expects, or nothing if they expect none. -/
theorem C102_exact (mem : Nat) (ops : List Op) (ho : ∀ op ∈ ops, ∀ s f n i w, op = .save s f n i w → s.Fits mem) (remove : Bool) :
    ((Store.run mem {} ops).load mem true remove).2 = (View.run {} ops).held ∧
    ((Store.run mem {} ops).load mem true remove).1.dead = (View.run {} ops).dead := by
  have h0 : Tie mem {} {} := ⟨(fun b hb => by cases hb), rfl, rfl⟩
  have h := h0.run ops ho
  simp only [Store.load]
  split
  · rename_i hf
    refine ⟨?_, h.dead⟩
    cases hv : (View.run {} ops).held with
    | none => rfl
    | some s =>
      have := h.file
      rw [hv] at this
      have := this.1
      rw [hf] at this
      cases this
  · rename_i b hf
    rcases Rep.load h.file b hf with ⟨e1, e2⟩ | ⟨s, e1, e2⟩
    · simp only [if_true, e2, e1]
      exact ⟨trivial, h.dead⟩
    · simp only [if_true, e2, e1]
      exact ⟨trivial, h.dead⟩

/-- C102: what is read was passed to a write that created the file, and no time in it is before 1970. -/
theorem C102_sound (mem : Nat) (ops : List Op) (ho : ∀ op ∈ ops, ∀ s f n i w, op = .save s f n i w → s.Fits mem) (remove : Bool) (s : Snap)
    (h : ((Store.run mem {} ops).load mem true remove).2 = some s) :
    s.Timely ∧ ∃ f n i w, Op.save s f n i w ∈ ops ∧ w ≠ .noFile := by
  rw [(C102_exact mem ops ho remove).1] at h
  clear ho
  have key : ∀ (ops : List Op) (v : View), (v.run ops).held = some s → v.held = some s ∨ s.Timely ∧ ∃ f n i w, Op.save s f n i w ∈ ops ∧ w ≠ .noFile := by
    intro ops
    induction ops with
    | nil => intro v h; exact Or.inl h
    | cons op ops ih =>
      intro v h
      rcases ih (v.step op) h with h1 | ⟨ht, f, n, i, w, hm, hw⟩
      · cases op with
        | boot => exact Or.inl h1
        | load o r =>
          simp only [View.step] at h1
          split at h1
          · exact Or.inl h1
          · dsimp only at h1
            split at h1
            · cases h1
            · exact Or.inl h1
        | save s' f n i w =>
          simp only [View.step] at h1
          split at h1
          · exact Or.inl h1
          · dsimp only at h1
            cases w with
            | noFile => exact Or.inl h1
            | cut k =>
              simp only [left] at h1
              split at h1
              · rename_i hc; cases h1; exact Or.inr ⟨hc.2, f, n, i, _, List.mem_cons_self, nofun⟩
              · cases h1
            | die k =>
              simp only [left] at h1
              split at h1
              · rename_i hc; cases h1; exact Or.inr ⟨hc.2, f, n, i, _, List.mem_cons_self, nofun⟩
              · cases h1
            | fine =>
              simp only [left] at h1
              split at h1
              · rename_i hc; cases h1; exact Or.inr ⟨hc, f, n, i, _, List.mem_cons_self, nofun⟩
              · cases h1
      · exact Or.inr ⟨ht, f, n, i, w, by simp [hm], hw⟩
  rcases key ops {} h with h | h
  · cases h
  · exact h

/-- C102: a state written without an error is what every later start reads, until the file is created again or a start fails to open it. -/
theorem C102_kept (mem : Nat) (t : Store) (s : Snap) (force : Bool) (now interval : Nat) (hf : s.Fits mem) (ht : s.Timely)
    (hd : t.dead = false) (hl : force = true ∨ ∀ l, t.last = some l → l + interval ≤ now) (ops : List Op)
    (ho : ∀ op ∈ ops, op = .boot ∨ (∃ r, op = .load true r) ∨ ∃ s f n i, op = .save s f n i .noFile) (remove : Bool) :
    let t' := Store.run mem t (.save s force now interval .fine :: ops)
    (t'.load mem true remove).2 = some s ∧ (t.step mem (.save s force now interval .fine)).saves = t.saves + 1 ∧
    (t.step mem (.save s force now interval .fine)).last = some now := by
  have hdue' : t.due force now interval = true := by
    rw [← Bool.not_eq_false, due_iff]
    rintro ⟨h1, l, h2, h3⟩
    rcases hl with h | h
    · rw [h] at h1; cases h1
    · have := h l h2
      omega
  have e : t.step mem (.save s force now interval .fine) = { t with file := some (snap.enc s).1, last := some now, saves := t.saves + 1 } := by
    simp only [Store.step, hd, Bool.false_eq_true, if_false]
    simp only [Store.save, hdue', if_true, Snap.write, (snap_true s).2 ht, hd]
  have hrt := ((C102_format mem s hf).1 ht).2 []
  rw [List.append_nil] at hrt
  have key : ∀ (ops : List Op), (∀ op ∈ ops, op = .boot ∨ (∃ r, op = .load true r) ∨ ∃ s f n i, op = .save s f n i .noFile) →
      ∀ t : Store, t.file = some (snap.enc s).1 → (Store.run mem t ops).file = some (snap.enc s).1 := by
    intro ops
    induction ops with
    | nil => intro _ t h; exact h
    | cons op ops ih =>
      intro ho t h
      refine ih (fun x hx => ho x (by simp [hx])) _ ?_
      rcases ho op (by simp) with rfl | ⟨r, rfl⟩ | ⟨s', f, n, i, rfl⟩
      · exact h
      · simp only [Store.step]
        split
        · exact h
        · simp [Store.load, h, hrt]
      · simp only [Store.step]
        split
        · exact h
        · simp only [Store.save]
          split
          · exact h
          · exact h
  refine ⟨?_, by rw [e], by rw [e]⟩
  show ((Store.run mem (t.step mem (.save s force now interval .fine)) ops).load mem true remove).2 = some s
  have h := key ops ho _ (show (t.step mem (.save s force now interval .fine)).file = _ by rw [e])
  simp [Store.load, h, hrt]

/-- C102: an attempt to save is counted once, as a success only if the file then holds the state; a failure leaves the time of the last success alone; an unforced
attempt within the interval of the last success does nothing. -/
theorem C102_counted (mem : Nat) (t : Store) (s : Snap) (hs : s.Fits mem) (force : Bool) (now interval : Nat) (w : Wr) (hd : ∀ n, w ≠ .die n) :
    let t' := t.save s force now interval w
    (t' = t ∨ (t'.saves = t.saves + 1 ∧ t'.saveFails = t.saveFails ∧ t'.last = some now ∧ ∀ r, (t'.load mem true r).2 = some s) ∨
      (t'.saves = t.saves ∧ t'.saveFails = t.saveFails + 1 ∧ t'.last = t.last)) ∧
    (t' = t ↔ force = false ∧ ∃ l, t.last = some l ∧ now - l < interval) := by
  intro t'
  have hdue := due_iff t force now interval
  have hex : ∀ f r, write t.file s w = (f, r) → (r = some true → f = some (snap.enc s).1 ∧ s.Timely) ∧ r ≠ none := by
    intro f r h
    cases w with
    | noFile => cases h; exact ⟨nofun, nofun⟩
    | cut n => cases h; exact ⟨nofun, nofun⟩
    | die n => exact absurd rfl (hd n)
    | fine =>
      cases h
      refine ⟨fun h => ⟨rfl, (snap_true s).1 (by simpa using h)⟩, nofun⟩
  by_cases hb : t.due force now interval = false
  · have : t' = t := by simp [t', Store.save, hb]
    exact ⟨Or.inl this, fun _ => hdue.1 hb, fun _ => this⟩
  · have hb' : t.due force now interval = true := by simpa only [Bool.not_eq_false] using hb
    have ht : t' = t.save s force now interval w := rfl
    simp only [Store.save, hb', if_true] at ht
    split at ht
    · rename_i f hw
      obtain ⟨hf, hti⟩ := (hex _ _ hw).1 rfl
      refine ⟨Or.inr (Or.inl ⟨by rw [ht], by rw [ht], by rw [ht], ?_⟩), fun h => ?_, fun h => absurd (hdue.2 h) hb⟩
      · intro r
        have hrt := ((C102_format mem s hs).1 hti).2 []
        rw [List.append_nil] at hrt
        rw [ht]
        simp [Store.load, hf, hrt]
      · have := congrArg Store.saves (ht.symm.trans h)
        simp at this
    · refine ⟨Or.inr (Or.inr ⟨by rw [ht], by rw [ht], by rw [ht]⟩), fun h => ?_, fun h => absurd (hdue.2 h) hb⟩
      have := congrArg Store.saveFails (ht.symm.trans h)
      simp at this
    · rename_i f hw
      exact absurd rfl (hex _ _ hw).2

/-- C102, for a file of any origin: reading it gives a state, or no state and (if it can be removed) no file, unless a length in it asks for more memory than there is. -/
theorem C102_foreign_partial (mem : Nat) (t : Store) (b : List UInt8) (hf : t.file = some b) (hb : snap.dec mem b ≠ .big) (opens : Bool) :
    let r := t.load mem opens true
    r.1.dead = t.dead ∧ ((∃ s rest, opens = true ∧ snap.dec mem b = .ok s rest ∧ r.2 = some s ∧ r.1.file = t.file ∧ r.1.loads = t.loads + 1 ∧ r.1.loadFails = t.loadFails) ∨
      (r.2 = none ∧ r.1.file = none ∧ r.1.loads = t.loads ∧ r.1.loadFails = t.loadFails + 1)) := by
  cases opens with
  | false => simp [Store.load, hf]
  | true =>
    simp only [Store.load, hf, if_true]
    cases hd : snap.dec mem b with
    | big => exact absurd hd hb
    | err => simp
    | ok s rest => simp

/-- The full statement fails: a file that begins with a great length ends the process at every start, and is still there at the next one. -/
theorem C102_abort_violated (mem : Nat) (hm : mem < 2 ^ 62) (rest : List UInt8) (k : Nat) : ∀ (t : Store), t.dead = false →
    t.file = some ([0, 0, 0, 0, 0, 0, 0, 0x40] ++ rest) →
    let t' := Store.run mem t ((List.replicate k [Op.load true true, Op.boot]).flatten ++ [.load true true])
    t'.dead = true ∧ t'.file = t.file := by
  have hbig : snap.dec mem ([0, 0, 0, 0, 0, 0, 0, 0x40] ++ rest) = .big := by
    have e : str.dec mem ([0, 0, 0, 0, 0, 0, 0, 0x40] ++ rest) = .big := by
      have hu : unle [0, 0, 0, 0, 0, 0, 0, 0x40] = 2 ^ 62 := by decide
      have ht : takeN 8 ([0, 0, 0, 0, 0, 0, 0, 0x40] ++ rest) = .ok [0, 0, 0, 0, 0, 0, 0, 0x40] rest := by
        simp [takeN]
      simp only [str, ht, Dec.bind, hu]
      exact if_pos hm
    simp only [snap, Codec.as, pair, e, Dec.bind, Dec.map]
  have h1 : ∀ t : Store, t.dead = false → t.file = some ([0, 0, 0, 0, 0, 0, 0, 0x40] ++ rest) →
      t.step mem (.load true true) = { t with dead := true } := by
    intro t hd hf
    simp only [Store.step, hd, Bool.false_eq_true, if_false, Store.load, hf, if_true, hbig]
  induction k with
  | zero =>
    intro t hd hf
    show (t.step mem (.load true true)).dead = true ∧ (t.step mem (.load true true)).file = t.file
    rw [h1 t hd hf]
    exact ⟨rfl, rfl⟩
  | succ k ih =>
    intro t hd hf
    have := ih ((t.step mem (.load true true)).step mem .boot) rfl (by rw [h1 t hd hf]; exact hf)
    refine ⟨?_, ?_⟩
    · exact this.1
    · refine this.2.trans ?_
      rw [h1 t hd hf]
      rfl

/-- The full statement fails: one run whose first step was made before 1970 (the clock, or a time given with the log) makes every save fail, and the first
attempt destroys what was stored before. -/
theorem C102_clock_violated (mem : Nat) (t : Store) (s : Snap) (hs : s.Fits mem) (ht : ¬ s.Timely) (force : Bool) (now interval : Nat) (w : Wr)
    (hd : t.due force now interval = true) (hw : w ≠ .noFile) (remove : Bool) :
    (t.save s force now interval w).saves = t.saves ∧ ((t.save s force now interval w).load mem true remove).2 = none := by
  have h2 := (C102_format mem s hs).2
  have e : (snap.enc s).2 = false := by
    rw [← snap_true] at ht
    simpa using ht
  have hall := h2 (snap.enc s).1.length (Or.inr ht)
  rw [List.take_length] at hall
  cases w with
  | noFile => exact absurd rfl hw
  | cut n => simp [Store.save, hd, Snap.write, Store.load, h2 n (Or.inr ht)]
  | die n => simp [Store.save, hd, Snap.write, Store.load, h2 n (Or.inr ht)]
  | fine => simp [Store.save, hd, Snap.write, e, Store.load, hall]

/-- The full statement fails: a write that is cut short, or a process that dies in it, leaves nothing: neither the new state nor the old one. -/
theorem C102_torn_violated (mem : Nat) (t : Store) (s : Snap) (hs : s.Fits mem) (force : Bool) (now interval n : Nat) (hn : n < (snap.enc s).1.length)
    (hd : t.due force now interval = true) (remove : Bool) :
    ((t.save s force now interval (.cut n)).load mem true remove).2 = none ∧
    ((t.save s force now interval (.die n)).boot.load mem true remove).2 = none := by
  have h2 := (C102_format mem s hs).2 n (Or.inl hn)
  simp [Store.save, hd, Snap.write, Store.boot, Store.load, h2]

/-- The full statement fails: a start that cannot open the file removes it, and the next start, that could, finds nothing. -/
theorem C102_transient_violated (mem : Nat) (t : Store) (remove : Bool) :
    (((t.load mem false true).1.boot).load mem true remove).2 = none := by
  cases hf : t.file <;> simp [Store.load, Store.boot, hf]

/-! ### The engine -/

theorem ofSaved_timely (s : Saved) : (ofSaved s).Timely := by
  intro w hw r hr t ht
  simp only [ofSaved, List.mem_map] at hw
  obtain ⟨w', _, rfl⟩ := hw
  simp only [List.mem_map] at hr
  obtain ⟨r', _, rfl⟩ := hr
  simp only [ofRun, Option.map_eq_some_iff] at ht
  obtain ⟨n, _, rfl⟩ := ht
  exact Int.natCast_nonneg _

theorem map_inj {α β : Type} {f : α → β} (hf : ∀ a b, f a = f b → a = b) : ∀ {l m : List α}, l.map f = m.map f → l = m
  | [], [], _ => rfl
  | [], _ :: _, h => by cases h
  | _ :: _, [], h => by cases h
  | a :: l, b :: m, h => by
    simp only [List.map_cons, List.cons.injEq] at h
    rw [hf _ _ h.1, map_inj hf h.2]

theorem ofRun_inj (a b : Run) (h : ofRun a = ofRun b) : a = b := by
  obtain ⟨a1, a2, a3⟩ := a
  obtain ⟨b1, b2, b3⟩ := b
  simp only [ofRun, SRun.mk.injEq] at h
  obtain ⟨rfl, rfl, h⟩ := h
  have : a3 = b3 := by
    cases a3 <;> cases b3 <;> simp_all
    omega
  rw [this]

theorem ofSaved_inj {a b : Saved} (h : ofSaved a = ofSaved b) : a = b := by
  obtain ⟨a1, a2, a3, a4⟩ := a
  obtain ⟨b1, b2, b3, b4⟩ := b
  simp only [ofSaved, Snap.mk.injEq] at h
  obtain ⟨rfl, h, rfl, rfl⟩ := h
  have : a2 = b2 := by
    refine map_inj ?_ h
    intro x y e
    obtain ⟨x1, x2⟩ := x
    obtain ⟨y1, y2⟩ := y
    simp only [SWorkflow.mk.injEq] at e
    rw [e.1, map_inj ofRun_inj e.2]
  rw [this]

/-- How the engine's model names the outcome of a write. -/
def outOf (s : Snap) : Wr → Out
  | .noFile => .fail
  | .cut n => if (snap.enc s).1.length ≤ n then .ok else .torn
  | .die n => if (snap.enc s).1.length ≤ n then .ok else .torn
  | .fine => .ok

theorem Rep.unique {mem : Nat} {f : Option (List UInt8)} {a b : Option Snap} (ha : Rep mem f a) (hb : Rep mem f b) : a = b := by
  cases hf : f with
  | none =>
    cases a <;> cases b
    · rfl
    · cases hf.symm.trans hb.1
    · cases hf.symm.trans ha.1
    · cases hf.symm.trans ha.1
  | some x =>
    rcases Rep.load ha x hf with ⟨e1, e2⟩ | ⟨s, e1, e2⟩ <;> rcases Rep.load hb x hf with ⟨e3, e4⟩ | ⟨s', e3, e4⟩
    · rw [e1, e3]
    · rw [e2] at e4; cases e4
    · rw [e2] at e4; cases e4
    · rw [e2] at e4; cases e4; rw [e1, e3]

/-- C102: the disk of the engine's model is the file: it is kept by every save, and what a start reads from the file is what the engine's model reads from its disk. -/
theorem C102_engine (mem : Nat) (t : Store) (e : Engine) (hr : Rep mem t.file (e.disk.map ofSaved)) :
    (∀ remove, (t.load mem true remove).2 = e.disk.map ofSaved) ∧
    ((ofSaved e.saved).Fits mem → e.dirty = true → ∀ force now interval w,
      Rep mem (t.save (ofSaved e.saved) force now interval w).file
        ((e.persist (t.due force now interval) (outOf (ofSaved e.saved) w)).disk.map ofSaved)) ∧
    (∀ f : Option (List UInt8), ∀ a b : Option Saved, Rep mem f (a.map ofSaved) → Rep mem f (b.map ofSaved) → a = b) := by
  refine ⟨?_, ?_, ?_⟩
  · intro remove
    simp only [Store.load]
    split
    · rename_i hf
      exact Rep.unique (by rw [hf]; exact fun b hb => by cases hb) hr
    · rename_i b hf
      rcases Rep.load hr b hf with ⟨e1, e2⟩ | ⟨s, e1, e2⟩
      · simp only [if_true, e2, e1]
      · simp only [if_true, e2, e1]
  · intro hs hd force now interval w
    cases hdue : t.due force now interval with
    | false => simpa [Store.save, Engine.persist, hdue] using hr
    | true =>
      have hw := Rep.write hr hs w
      have ht := ofSaved_timely e.saved
      have h1 : (t.save (ofSaved e.saved) force now interval w).file = (Snap.write t.file (ofSaved e.saved) w).1 := by
        simp only [Store.save, hdue, if_true]
        split <;> (rename_i hx; rw [hx])
      rw [h1]
      have h2 : (e.persist true (outOf (ofSaved e.saved) w)).disk.map ofSaved = left (e.disk.map ofSaved) (ofSaved e.saved) w := by
        simp only [Engine.persist, hd, Bool.and_self, if_true]
        cases w with
        | noFile => rfl
        | cut n => by_cases hn : (snap.enc (ofSaved e.saved)).1.length ≤ n <;> simp [outOf, left, ht, hn]
        | die n => by_cases hn : (snap.enc (ofSaved e.saved)).1.length ≤ n <;> simp [outOf, left, ht, hn]
        | fine => simp [outOf, left, ht]
      rw [h2]
      exact hw
  · intro f a b ha hb
    have := Rep.unique ha hb
    cases a <;> cases b <;> simp at this ⊢
    exact ofSaved_inj this

/-! ### A case -/

/-- A workflow waiting in its second state, a flush waiting for approval, a stream. -/
def demo (t : Int) : Snap :=
  { session := "s1"
    workflows := [⟨"w", [⟨[⟨1, [2], [("k", ⟨[⟨"home", true⟩], false⟩)]⟩], 3, some t⟩]⟩]
    pending := [⟨"f", "s1", ["a", "b"], some ⟨["c"], some 10⟩⟩]
    streams := [⟨"g", "s1", ["a"], ["c"], none, 4⟩] }

theorem demo_fits (t : Int) (h : t < 2 ^ 63 * 10 ^ 9) : (demo t).Fits (2 ^ 30) := by
  refine ⟨show strFits (2 ^ 30) "s1" by unfold strFits; decide +kernel, ⟨by simp [demo], ?_⟩, ⟨by unfold Sorted; simp [demo], by simp [demo], ?_⟩, by simp [demo], ?_⟩
  · simp only [demo, List.mem_singleton, forall_eq]
    refine ⟨by unfold strFits; decide +kernel, by simp, ?_⟩
    simp only [List.mem_singleton, forall_eq]
    refine ⟨⟨by simp, ?_⟩, by simp, by simpa using h⟩
    simp only [List.mem_singleton, forall_eq]
    refine ⟨by decide, ⟨by decide, by decide⟩, by unfold Sorted; simp, by decide, ?_⟩
    simp only [List.mem_singleton, forall_eq]
    refine ⟨by unfold strFits; decide +kernel, by decide, ?_⟩
    simp only [List.mem_singleton, forall_eq]
    unfold strFits; decide +kernel
  · simp only [demo, List.mem_singleton, forall_eq]
    refine ⟨by unfold strFits; decide +kernel, by unfold strFits; decide +kernel, ⟨by unfold Sorted; decide +kernel, by decide, by unfold strFits; decide +kernel⟩, ?_⟩
    intro s hs
    cases hs
    refine ⟨⟨by unfold Sorted; simp, by decide, by unfold strFits; decide +kernel⟩, ?_⟩
    intro n hn
    cases hn
    decide
  · simp only [demo, List.mem_singleton, forall_eq]
    exact ⟨by unfold strFits; decide +kernel, by unfold strFits; decide +kernel, ⟨by unfold Sorted; simp, by decide, by unfold strFits; decide +kernel⟩,
      ⟨by unfold Sorted; simp, by decide, by unfold strFits; decide +kernel⟩, nofun, by decide⟩

theorem demo_timely (t : Int) : (demo t).Timely ↔ 0 ≤ t := by
  simp [Snap.Timely, demo]

/-- The bytes: the session, the number of workflows, ... -/
example : (snap.enc (demo 1500000000)).2 = true ∧ (snap.enc (demo 1500000000)).1.length = 270 ∧
    (snap.enc (demo 1500000000)).1.take 27 = [2, 0, 0, 0, 0, 0, 0, 0, 0x73, 0x31, 1, 0, 0, 0, 0, 0, 0, 0, 1, 0, 0, 0, 0, 0, 0, 0, 0x77] := by
  decide +kernel

/-- C102_exact, C102_sound: a save, one that comes too early, one that is cut, a restart in between. -/
example : ∀ op ∈ [Op.save (demo 5) false 0 5 .fine, .boot, .load true true, .save (demo 6) true 1 5 .fine, .save (demo 7) false 2 5 .fine, .load true true],
    ∀ s f n i w, op = .save s f n i w → s.Fits (2 ^ 30) := by
  intro op hop s f n i w h
  subst h
  simp only [List.mem_cons, List.not_mem_nil, or_false, reduceCtorEq, false_or, Op.save.injEq] at hop
  rcases hop with h | h | h <;> (rw [h.1]; exact demo_fits _ (by decide))

example : ((Store.run (2 ^ 30) {} [.save (demo 5) false 0 5 .fine, .boot, .load true true, .save (demo 6) true 1 5 .fine, .save (demo 7) false 2 5 .fine,
    .load true true]).load (2 ^ 30) true true).2 = some (demo 6) := by decide +kernel

/-- C102_kept -/
example : ((Store.run (2 ^ 30) {} [.save (demo 5) false 0 5 .fine, .boot, .load true true, .save (demo 7) true 2 5 .noFile, .boot]).load (2 ^ 30) true true).2 = some (demo 5) :=
  (C102_kept (2 ^ 30) {} (demo 5) false 0 5 (demo_fits _ (by decide)) ((demo_timely _).2 (by decide)) rfl (Or.inr nofun)
    [.boot, .load true true, .save (demo 7) true 2 5 .noFile, .boot] (by simp) true).1

/-- C102_counted: both kinds, and the attempt that is too early. -/
example : (Store.save {} (demo 5) false 9 5 .fine).saves = 1 ∧ (Store.save {} (demo 5) false 9 5 (.cut 3)).saveFails = 1 ∧
    Store.save { last := some 7 } (demo 5) false 9 5 .fine = { last := some 7 } := by decide +kernel

/-- C102_foreign_partial: a file with an odd byte for a bool. -/
example : snap.dec (2 ^ 30) [0, 0, 0, 0, 0, 0, 0, 0, 1] = .err ∧ snap.dec (2 ^ 30) [0, 0, 0, 0, 0, 0, 0, 0, 1] ≠ .big := by decide +kernel

/-- C102_abort_violated -/
example : (Store.run (2 ^ 30) { file := some [0, 0, 0, 0, 0, 0, 0, 0x40] } [.load true true, .boot, .load true true]).dead = true :=
  (C102_abort_violated (2 ^ 30) (by decide) [] 1 _ rfl rfl).1

/-- C102_clock_violated: the state of before is gone. -/
example : let t := Store.run (2 ^ 30) {} [.save (demo 5) false 0 5 .fine, .save (demo (-1)) false 9 5 .fine]
    t.saves = 1 ∧ t.saveFails = 1 ∧ (t.load (2 ^ 30) true true).2 = none := by decide +kernel

/-- C102_torn_violated -/
example : let t := Store.run (2 ^ 30) {} [.save (demo 5) false 0 5 .fine, .save (demo 6) false 9 5 (.die 269), .boot]
    (t.load (2 ^ 30) true true).2 = none := by decide +kernel

/-- C102_transient_violated: the file was good. -/
example : let t := Store.run (2 ^ 30) {} [.save (demo 5) false 0 5 .fine, .boot]
    (t.load (2 ^ 30) true true).2 = some (demo 5) ∧ (((t.load (2 ^ 30) false true).1.boot).load (2 ^ 30) true true).2 = none := by decide +kernel

/-- C102_engine: an engine with nothing on disk and one with a state. -/
example (s : Saved) (h : (ofSaved s).Fits 9) : Rep 9 none ((none : Option Saved).map ofSaved) ∧ Rep 9 (some (snap.enc (ofSaved s)).1) ((some s).map ofSaved) :=
  ⟨(fun b hb => by cases hb), rfl, ofSaved_timely s, h⟩

end Verif.Wf.Snap
