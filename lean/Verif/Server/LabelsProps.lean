import Verif.Server.Labels
import Mathlib.Data.List.Perm.Subperm
import Mathlib.Data.List.Nodup

/-
C90: the number of label values in use is bounded, whatever the callers pass and however their calls are interleaved.
-/
namespace Verif.Server

/-- The thread was admitted and has not yet increased the counter. -/
def TPc.busy : TPc → Bool
  | .admitted .. => true
  | .inserted .. => true
  | _ => false

def TPc.ins : TPc → Bool
  | .inserted .. => true
  | _ => false

/-- The labels the thread has dealt with are stored. -/
def TPc.good (labels : List Str) : TPc → Prop
  | .idle => True
  | .loop call rest => ∀ kv ∈ call, kv ∈ rest ∨ lkey kv ∈ labels
  | .vacant call kv rest => ∀ x ∈ call, x = kv ∨ x ∈ rest ∨ lkey x ∈ labels
  | .admitted call kv rest => ∀ x ∈ call, x = kv ∨ x ∈ rest ∨ lkey x ∈ labels
  | .inserted call _ rest => ∀ x ∈ call, x ∈ rest ∨ lkey x ∈ labels

structure TInv (max : Nat) (shard : Str → Nat) (n : Nat) (s : Trk) : Prop where
  len : s.threads.length = n
  nodup : s.labels.Nodup
  count : s.labels.length = s.count + s.threads.countP TPc.ins
  bound : s.count + s.threads.countP TPc.busy = 0 ∨ s.count + s.threads.countP TPc.busy + 1 ≤ max + n
  fresh : ∀ p ∈ s.threads, ∀ k, p.locked = some k → k ∉ s.labels
  excl : ∀ (i j : Nat) (p q : TPc) (k l : Str), s.threads[i]? = some p → s.threads[j]? = some q → p.locked = some k → q.locked = some l →
    shard k = shard l → i = j
  good : ∀ p ∈ s.threads, p.good s.labels
  results : ∀ r ∈ s.results, (r.2 = r.1.map (·.2) ∧ ∀ kv ∈ r.1, lkey kv ∈ s.labels) ∨
    (r.2 = List.replicate r.1.length (bytes "label_overflow") ∧ max ≤ s.count)
  full : s.overflow = 0 ∨ max ≤ s.count
  lower : s.results.countP (fun r => r.2 != r.1.map (fun kv => kv.2)) ≤ s.overflow
  upper : s.overflow ≤ s.results.countP (fun r => r.2 == List.replicate r.1.length (bytes "label_overflow"))

theorem countP_set' {α} (p : α → Bool) (l : List α) (i : Nat) (a b : α) (h : l[i]? = some a) :
    (l.set i b).countP p + (if p a then 1 else 0) = l.countP p + (if p b then 1 else 0) := by
  induction l generalizing i with
  | nil => simp at h
  | cons x xs ih =>
    cases i with
    | zero =>
      simp at h; subst h
      simp only [List.set_cons_zero, List.countP_cons]; omega
    | succ i =>
      simp at h
      have := ih i h
      simp only [List.set_cons_succ, List.countP_cons]; omega

theorem mem_set' {α} {l : List α} {i : Nat} {b x : α} (h : x ∈ l.set i b) : x = b ∨ x ∈ l :=
  (List.mem_or_eq_of_mem_set h).symm

theorem good_mono {p : TPc} {l l' : List Str} (h : p.good l) (hs : ∀ k ∈ l, k ∈ l') : p.good l' := by
  cases p <;> simp only [TPc.good] at h ⊢ <;> intro x hx <;> have := h x hx <;> grind

theorem inv_init (max : Nat) (shard) (n : Nat) : TInv max shard n (Trk.init n) := by
  refine ⟨by simp [Trk.init], by simp [Trk.init], ?_, ?_, ?_, ?_, ?_, by simp [Trk.init], by simp [Trk.init], by simp [Trk.init],
    by simp [Trk.init]⟩
  · simp [Trk.init, List.countP_replicate, TPc.ins]
  · left; simp [Trk.init, List.countP_replicate, TPc.busy]
  · intro p hp k hk; simp [Trk.init] at hp; rw [hp.2] at hk; simp [TPc.locked] at hk
  · intro i j p q k l hp _ hk
    have := List.mem_of_getElem? hp
    simp [Trk.init] at this; rw [this.2] at hk; simp [TPc.locked] at hk
  · intro p hp; simp [Trk.init] at hp; rw [hp.2]; trivial

/-- Replacing the program counter of one thread by one that holds no new lock. -/
theorem excl_set {shard : Str → Nat} {ths : List TPc} {t : Nat} {old new : TPc}
    (h : ∀ (i j : Nat) (p q : TPc) (k l : Str), ths[i]? = some p → ths[j]? = some q → p.locked = some k → q.locked = some l →
      shard k = shard l → i = j)
    (ho : ths[t]? = some old) (hn : new.locked = none ∨ new.locked = old.locked) :
    ∀ (i j : Nat) (p q : TPc) (k l : Str), (ths.set t new)[i]? = some p → (ths.set t new)[j]? = some q → p.locked = some k →
      q.locked = some l → shard k = shard l → i = j := by
  intro i j p q k l hp hq hk hl hs
  have key : ∀ (i : Nat) (p : TPc) (k : Str), (ths.set t new)[i]? = some p → p.locked = some k →
      ∃ p', ths[i]? = some p' ∧ p'.locked = some k := by
    intro i p k hp hk
    rw [List.getElem?_set] at hp
    split at hp
    · rename_i hti
      split at hp
      · simp at hp; subst hp; subst hti
        rcases hn with hn | hn
        · rw [hn] at hk; cases hk
        · exact ⟨old, ho, by rw [← hn, hk]⟩
      · cases hp
    · exact ⟨p, hp, hk⟩
  obtain ⟨p', hp', hk'⟩ := key i p k hp hk
  obtain ⟨q', hq', hl'⟩ := key j q l hq hl
  exact h i j p' q' k l hp' hq' hk' hl' hs

theorem inv_go {max : Nat} {shard} {n : Nat} {s : Trk} (h : TInv max shard n s) (t : Nat) :
    TInv max shard n (s.go max shard t) := by
  obtain ⟨h1, h2, h3, h4, h5, h6, h7, h8, h9, h10, h11⟩ := h
  unfold Trk.go
  split
  · exact ⟨h1, h2, h3, h4, h5, h6, h7, h8, h9, h10, h11⟩
  · exact ⟨h1, h2, h3, h4, h5, h6, h7, h8, h9, h10, h11⟩
  · -- the call returns
    rename_i call ht
    have hm := List.mem_of_getElem? ht
    have c1 := countP_set' TPc.ins _ t _ TPc.idle ht
    have c2 := countP_set' TPc.busy _ t _ TPc.idle ht
    simp only [TPc.ins, TPc.busy, Bool.false_eq_true, if_false] at c1 c2
    refine ⟨by simpa using h1, h2, by dsimp only; omega, ?_, ?_, excl_set h6 ht (Or.inl rfl), ?_, ?_, h9, ?_, ?_⟩
    · dsimp only
      omega
    · intro p hp k hk
      rcases mem_set' hp with hp | hp
      · subst hp; cases hk
      · exact h5 p hp k hk
    · intro p hp
      rcases mem_set' hp with hp | hp
      · subst hp; trivial
      · exact h7 p hp
    · intro r hr
      rcases List.mem_append.1 hr with hr | hr
      · exact h8 r hr
      · simp at hr; subst hr
        left
        refine ⟨rfl, ?_⟩
        intro kv hkv
        have := h7 _ hm kv hkv
        simpa using this
    · simp only [List.countP_append]
      simpa using h10
    · simp only [List.countP_append]
      exact Nat.le_trans h11 (Nat.le_add_right _ _)
  · rename_i call kv rest ht
    have hm := List.mem_of_getElem? ht
    split
    · rename_i hfree
      split
      · -- known label
        rename_i hk
        have c1 := countP_set' TPc.ins _ t _ (TPc.loop call rest) ht
        have c2 := countP_set' TPc.busy _ t _ (TPc.loop call rest) ht
        simp only [TPc.ins, TPc.busy, Bool.false_eq_true, if_false] at c1 c2
        refine ⟨by simpa using h1, h2, by dsimp only; omega, ?_, ?_, excl_set h6 ht (Or.inl rfl), ?_, h8, h9, h10, h11⟩
        · dsimp only
          omega
        · intro p hp k hk
          rcases mem_set' hp with hp | hp
          · subst hp; cases hk
          · exact h5 p hp k hk
        · intro p hp
          rcases mem_set' hp with hp | hp
          · subst hp
            intro x hx
            have := h7 _ hm x hx
            rcases this with h | h
            · rcases List.mem_cons.1 h with h | h
              · subst h; exact Or.inr hk
              · exact Or.inl h
            · exact Or.inr h
          · exact h7 p hp
      · rename_i hk
        have c1 := countP_set' TPc.ins _ t _ (TPc.vacant call kv rest) ht
        have c2 := countP_set' TPc.busy _ t _ (TPc.vacant call kv rest) ht
        simp only [TPc.ins, TPc.busy, Bool.false_eq_true, if_false] at c1 c2
        have hf : ∀ (i : Nat) (p : TPc) (k : Str), s.threads[i]? = some p → p.locked = some k → shard k ≠ shard (lkey kv) := by
          intro i p k hp hk
          have := List.all_eq_true.1 hfree p (List.mem_of_getElem? hp)
          rw [hk] at this
          simpa using this
        refine ⟨by simpa using h1, h2, by dsimp only; omega, ?_, ?_, ?_, ?_, h8, h9, h10, h11⟩
        · dsimp only
          omega
        · intro p hp k hk'
          rcases mem_set' hp with hp | hp
          · subst hp; simp [TPc.locked] at hk'; subst hk'; exact hk
          · exact h5 p hp k hk'
        · intro i j p q k l hp hq hk' hl hs
          simp only [List.getElem?_set] at hp hq
          by_cases hi : t = i <;> by_cases hj : t = j
          · omega
          · exfalso
            rw [if_neg hj] at hq
            rw [if_pos hi] at hp
            split at hp
            · simp at hp; subst hp; simp [TPc.locked] at hk'; subst hk'
              exact hf j q l hq hl hs.symm
            · cases hp
          · exfalso
            rw [if_neg hi] at hp
            rw [if_pos hj] at hq
            split at hq
            · simp at hq; subst hq; simp [TPc.locked] at hl; subst hl
              exact hf i p k hp hk' hs
            · cases hq
          · rw [if_neg hi] at hp
            rw [if_neg hj] at hq
            exact h6 i j p q k l hp hq hk' hl hs
        · intro p hp
          rcases mem_set' hp with hp | hp
          · subst hp
            intro x hx
            have := h7 _ hm x hx
            rcases this with h | h
            · rcases List.mem_cons.1 h with h | h
              · exact Or.inl h
              · exact Or.inr (Or.inl h)
            · exact Or.inr (Or.inr h)
          · exact h7 p hp
    · exact ⟨h1, h2, h3, h4, h5, h6, h7, h8, h9, h10, h11⟩
  · rename_i call kv rest ht
    have hm := List.mem_of_getElem? ht
    split
    · -- admitted
      rename_i hlt
      have c1 := countP_set' TPc.ins _ t _ (TPc.admitted call kv rest) ht
      have c2 := countP_set' TPc.busy _ t _ (TPc.admitted call kv rest) ht
      simp only [TPc.ins, TPc.busy, Bool.false_eq_true, if_false, if_true] at c1 c2
      have hle : (s.threads.set t (TPc.admitted call kv rest)).countP TPc.busy ≤ n := by
        have := List.countP_le_length (p := TPc.busy) (l := s.threads.set t (TPc.admitted call kv rest))
        simp at this; omega
      refine ⟨by simpa using h1, h2, by dsimp only; omega, ?_, ?_, excl_set h6 ht (Or.inr rfl), ?_, h8, h9, h10, h11⟩
      · dsimp only
        omega
      · intro p hp k hk
        rcases mem_set' hp with hp | hp
        · subst hp; exact h5 _ hm k hk
        · exact h5 p hp k hk
      · intro p hp
        rcases mem_set' hp with hp | hp
        · subst hp; have := h7 _ hm; exact this
        · exact h7 p hp
    · rename_i hlt
      have c1 := countP_set' TPc.ins _ t _ TPc.idle ht
      have c2 := countP_set' TPc.busy _ t _ TPc.idle ht
      simp only [TPc.ins, TPc.busy, Bool.false_eq_true, if_false] at c1 c2
      refine ⟨by simpa using h1, h2, by dsimp only; omega, ?_, ?_, excl_set h6 ht (Or.inl rfl), ?_, ?_, ?_, ?_, ?_⟩
      · dsimp only
        omega
      · intro p hp k hk
        rcases mem_set' hp with hp | hp
        · subst hp; cases hk
        · exact h5 p hp k hk
      · intro p hp
        rcases mem_set' hp with hp | hp
        · subst hp; trivial
        · exact h7 p hp
      · intro r hr
        rcases List.mem_append.1 hr with hr | hr
        · exact h8 r hr
        · simp at hr; subst hr
          right
          refine ⟨by simp, ?_⟩
          show max ≤ s.count
          omega
      · right
        show max ≤ s.count
        omega
      · simp only [List.countP_append]
        simp only [List.countP_cons, List.countP_nil]
        split <;> omega
      · simp only [List.countP_append]
        simp only [List.countP_cons, List.countP_nil]
        rw [if_pos (by simp)]
        omega
  · rename_i call kv rest ht
    have hm := List.mem_of_getElem? ht
    have c1 := countP_set' TPc.ins _ t _ (TPc.inserted call kv rest) ht
    have c2 := countP_set' TPc.busy _ t _ (TPc.inserted call kv rest) ht
    simp only [TPc.ins, TPc.busy, Bool.false_eq_true, if_false, if_true] at c1 c2
    have hnew : lkey kv ∉ s.labels := h5 _ hm _ rfl
    refine ⟨by simpa using h1, ?_, ?_, ?_, ?_, excl_set h6 ht (Or.inl rfl), ?_, ?_, h9, h10, h11⟩
    · show (s.labels ++ [lkey kv]).Nodup
      rw [List.nodup_append]
      refine ⟨h2, by simp, ?_⟩
      intro a ha b hb
      simp at hb; subst hb
      intro hab; subst hab; exact hnew ha
    · simp only [List.length_append, List.length_singleton]; omega
    · dsimp only
      omega
    · intro p hp k hk
      rw [List.mem_append, not_or]
      obtain ⟨j, hj⟩ := List.mem_iff_getElem?.1 hp
      rw [List.getElem?_set] at hj
      split at hj
      · split at hj
        · simp at hj; subst hj; cases hk
        · cases hj
      · rename_i hne
        refine ⟨h5 p (List.mem_of_getElem? hj) k hk, ?_⟩
        intro hc
        simp at hc
        exact hne (h6 t j _ p (lkey kv) k ht hj rfl hk (by rw [hc]))
    · intro p hp
      rcases mem_set' hp with hp | hp
      · subst hp
        intro x hx
        have := h7 _ hm x hx
        rcases this with h | h | h
        · subst h; right; simp
        · exact Or.inl h
        · right; exact List.mem_append_left _ h
      · exact good_mono (h7 p hp) (fun k hk => List.mem_append_left _ hk)
    · intro r hr
      rcases h8 r hr with ⟨a, b⟩ | b
      · exact Or.inl ⟨a, fun kv hkv => List.mem_append_left _ (b kv hkv)⟩
      · exact Or.inr b
  · rename_i call kv rest ht
    have hm := List.mem_of_getElem? ht
    have c1 := countP_set' TPc.ins _ t _ (TPc.loop call rest) ht
    have c2 := countP_set' TPc.busy _ t _ (TPc.loop call rest) ht
    simp only [TPc.ins, TPc.busy, Bool.false_eq_true, if_false, if_true] at c1 c2
    refine ⟨by simpa using h1, h2, ?_, ?_, ?_, excl_set h6 ht (Or.inl rfl), ?_, ?_, ?_, h10, h11⟩
    · dsimp only; omega
    · dsimp only
      omega
    · intro p hp k hk
      rcases mem_set' hp with hp | hp
      · subst hp; cases hk
      · exact h5 p hp k hk
    · intro p hp
      rcases mem_set' hp with hp | hp
      · subst hp; have := h7 _ hm; exact this
      · exact h7 p hp
    · intro r hr
      rcases h8 r hr with b | ⟨a, b⟩
      · exact Or.inl b
      · exact Or.inr ⟨a, Nat.le_succ_of_le b⟩
    · rcases h9 with h | h
      · exact Or.inl h
      · exact Or.inr (Nat.le_succ_of_le h)

theorem inv_step {max : Nat} {shard} {n : Nat} {s : Trk} (h : TInv max shard n s) (e : TEv) :
    TInv max shard n (s.step max shard e) := by
  cases e with
  | go t => exact inv_go h t
  | call t pairs =>
    simp only [Trk.step]
    split
    · rename_i ht
      obtain ⟨h1, h2, h3, h4, h5, h6, h7, h8, h9, h10, h11⟩ := h
      have c1 := countP_set' TPc.ins _ t _ (TPc.loop pairs pairs) ht
      have c2 := countP_set' TPc.busy _ t _ (TPc.loop pairs pairs) ht
      simp only [TPc.ins, TPc.busy, Bool.false_eq_true, if_false] at c1 c2
      refine ⟨by simpa using h1, h2, by dsimp only; omega, ?_, ?_, excl_set h6 ht (Or.inl rfl), ?_, h8, h9, h10, h11⟩
      · dsimp only
        omega
      · intro p hp k hk
        rcases mem_set' hp with hp | hp
        · subst hp; cases hk
        · exact h5 p hp k hk
      · intro p hp
        rcases mem_set' hp with hp | hp
        · subst hp; intro x hx; exact Or.inl hx
        · exact h7 p hp
    · exact h

theorem inv_run {max : Nat} {shard} {n : Nat} : ∀ (es : List TEv) {s : Trk}, TInv max shard n s →
    TInv max shard n (s.run max shard es)
  | [], _, h => h
  | e :: es, _, h => inv_run es (inv_step h e)

theorem labels_bound {max : Nat} {shard} {n : Nat} {s : Trk} (h : TInv max shard n s) :
    s.labels.length = 0 ∨ s.labels.length + 1 ≤ max + n := by
  have hc := h.count
  have hb := h.bound
  have : s.threads.countP TPc.ins ≤ s.threads.countP TPc.busy := by
    apply List.countP_mono_left
    intro p _ hp
    cases p <;> simp_all [TPc.ins, TPc.busy]
  omega

/-- **C90 (limit).** With `n` threads the tracker never stores more than `max + n - 1` labels, and none twice; with one thread exactly
at most `max`. -/
theorem C90_limit (max n : Nat) (shard : Str → Nat) (es : List TEv) :
    let s := (Trk.init n).run max shard es
    s.labels.Nodup ∧ (s.labels = [] ∨ s.labels.length ≤ max + n - 1) := by
  have h := inv_run es (inv_init max shard n)
  refine ⟨h.nodup, ?_⟩
  rcases labels_bound h with h | h
  · exact Or.inl (List.length_eq_zero_iff.1 h)
  · right; omega

theorem lkey_inj (a x y : Str) (h : lkey (a, x) = lkey (a, y)) : x = y := by
  simp only [lkey] at h
  exact List.append_cancel_left h

/-- **C90 (values).** For one label name, the values that were handed out for it, apart from the fallback `label_overflow`, are at most
`max + n - 1` different ones, whatever the callers passed. -/
theorem C90_values (max n : Nat) (shard : Str → Nat) (es : List TEv) (name : Str) (vs : List Str) (hv : vs.Nodup)
    (hout : ∀ v ∈ vs, v ≠ "label_overflow".toList.map Char.toNat ∧
      ∃ r ∈ ((Trk.init n).run max shard es).results, (name, v) ∈ (r.1.map (·.1)).zip r.2) :
    vs = [] ∨ vs.length ≤ max + n - 1 := by
  have h := inv_run es (inv_init max shard n)
  generalize hs : (Trk.init n).run max shard es = s at h hout
  have hsub : ∀ v ∈ vs, lkey (name, v) ∈ s.labels := by
    intro v hvm
    obtain ⟨hne, r, hr, hz⟩ := hout v hvm
    rcases h.results r hr with ⟨e, hk⟩ | ⟨e, _⟩
    · rw [e] at hz
      have hz' : (name, v) ∈ r.1 := by
        have : (r.1.map (·.1)).zip (r.1.map (·.2)) = r.1 := by
          have := List.zip_unzip r.1
          rwa [List.unzip_eq_map] at this
        rw [this] at hz; exact hz
      exact hk _ hz'
    · rw [e] at hz
      have := (List.of_mem_zip hz).2
      rw [List.mem_replicate] at this
      exact absurd this.2 hne
  have hlen : (vs.map fun v => lkey (name, v)).length ≤ s.labels.length := by
    apply List.Subperm.length_le
    apply List.Nodup.subperm
    · exact hv.map_on (fun x _ y _ e => lkey_inj name x y e)
    · intro k hk
      obtain ⟨v, hv', rfl⟩ := List.mem_map.1 hk
      exact hsub v hv'
  simp at hlen
  rcases labels_bound h with h | h
  · left; exact List.length_eq_zero_iff.1 (by omega)
  · right; omega

/-- All lists of length `k` over `l`. -/
def lists (l : List Str) : Nat → List (List Str)
  | 0 => [[]]
  | k + 1 => l.flatMap fun x => (lists l k).map (x :: ·)

theorem lists_length (l : List Str) : ∀ k, (lists l k).length = l.length ^ k
  | 0 => rfl
  | k + 1 => by
    simp only [lists, List.length_flatMap, List.length_map, lists_length l k]
    simp [Nat.pow_succ, Nat.mul_comm]

theorem mem_lists (l : List Str) : ∀ (x : List Str), (∀ y ∈ x, y ∈ l) → x ∈ lists l x.length
  | [], _ => by simp [lists]
  | y :: x, h => by
    simp only [lists, List.length_cons, List.mem_flatMap, List.mem_map]
    exact ⟨y, h y (by simp), x, mem_lists l x (fun z hz => h z (by simp [hz])), rfl⟩

theorem zipWith_inj (ns : List Str) : ∀ (a b : List Str), a.length = ns.length → b.length = ns.length →
    (List.zipWith (fun n v => lkey (n, v)) ns a) = List.zipWith (fun n v => lkey (n, v)) ns b → a = b := by
  induction ns with
  | nil => intro a b ha hb _; simp at ha hb; rw [ha, hb]
  | cons n ns ih =>
    intro a b ha hb h
    cases a with
    | nil => simp at ha
    | cons x a =>
      cases b with
      | nil => simp at hb
      | cons y b =>
        simp at h ha hb
        rw [lkey_inj n x y h.1, ih a b ha hb h.2]

/-- **C90 (series).** The calls for one metric (the same label names) get at most `(max + n - 1) ^ k + 1` different combinations of
labels, where `k` is the number of names: this many series and no more exist, whatever the callers passed. -/
theorem C90_series (max n : Nat) (shard : Str → Nat) (es : List TEv) (names : List Str)
    (outs : List (List Str)) (hn : outs.Nodup)
    (hout : ∀ o ∈ outs, ∃ r ∈ ((Trk.init n).run max shard es).results, r.1.map (·.1) = names ∧ r.2 = o) :
    outs.length ≤ (max + n - 1) ^ names.length + 1 := by
  have h := inv_run es (inv_init max shard n)
  generalize hs : (Trk.init n).run max shard es = s at h hout
  let fb := List.replicate names.length (bytes "label_overflow")
  have hreal : ∀ o ∈ outs, o ≠ fb → o.length = names.length ∧
      List.zipWith (fun n v => lkey (n, v)) names o ∈ lists s.labels names.length := by
    intro o ho hne
    obtain ⟨r, hr, hnm, rfl⟩ := hout o ho
    rcases h.results r hr with ⟨e, hk⟩ | ⟨e, _⟩
    · have hl : r.2.length = names.length := by rw [e, ← hnm]; simp
      refine ⟨hl, ?_⟩
      have := mem_lists s.labels (List.zipWith (fun n v => lkey (n, v)) names r.2) ?_
      · simpa [hl] using this
      · intro y hy
        rw [e, ← hnm, List.zipWith_map] at hy
        rw [List.zipWith_self] at hy
        obtain ⟨kv, hkv, rfl⟩ := List.mem_map.1 hy
        exact hk kv hkv
    · exfalso; apply hne; rw [e]; simp [fb, ← hnm]
  have hlen : ((outs.filter (· ≠ fb)).map fun o => List.zipWith (fun n v => lkey (n, v)) names o).length ≤
      (lists s.labels names.length).length := by
    apply List.Subperm.length_le
    apply List.Nodup.subperm
    · apply List.Nodup.map_on _ (hn.filter _)
      intro a ha b hb e
      simp only [List.mem_filter, decide_eq_true_eq] at ha hb
      exact zipWith_inj names a b (hreal a ha.1 ha.2).1 (hreal b hb.1 hb.2).1 e
    · intro k hk
      obtain ⟨o, ho, rfl⟩ := List.mem_map.1 hk
      simp only [List.mem_filter, decide_eq_true_eq] at ho
      exact (hreal o ho.1 ho.2).2
  rw [lists_length] at hlen
  have hsplit : outs.length ≤ (outs.filter (· ≠ fb)).length + 1 := by
    have h1 : outs.length = (outs.filter (· ≠ fb)).length + (outs.filter (fun o => !decide (o ≠ fb))).length := by
      rw [← List.countP_eq_length_filter, ← List.countP_eq_length_filter]
      rw [List.length_eq_countP_add_countP (p := fun o => decide (o ≠ fb))]
      congr 1
      apply List.countP_congr
      intro x _
      by_cases hx : x = fb <;> simp [hx]
    have h2 : (outs.filter (fun o => !decide (o ≠ fb))).length ≤ 1 := by
      have : (outs.filter (fun o => !decide (o ≠ fb))).length = outs.count fb := by
        rw [List.count, List.countP_eq_length_filter]
        congr 1
        apply List.filter_congr
        intro x _
        by_cases hx : x = fb <;> simp [hx]
      rw [this]
      exact List.nodup_iff_count_le_one.1 hn fb
    omega
  simp only [List.length_map] at hlen
  have hb : s.labels.length ≤ max + n - 1 := by
    rcases labels_bound h with h | h <;> omega
  have := Nat.pow_le_pow_left hb names.length
  omega

theorem labels_mono (max : Nat) (shard) (s : Trk) (e : TEv) (k : Str) (hk : k ∈ s.labels) : k ∈ (s.step max shard e).labels := by
  cases e with
  | call t pairs => simp only [Trk.step]; split <;> exact hk
  | go t =>
    simp only [Trk.step, Trk.go]
    split <;> (try split) <;> (try split) <;> simp [hk]

theorem labels_run (max : Nat) (shard) : ∀ (es : List TEv) (s : Trk) (k : Str), k ∈ s.labels → k ∈ (s.run max shard es).labels
  | [], _, _, h => h
  | e :: es, s, k, h => labels_run max shard es _ k (labels_mono max shard s e k h)

/-- **C90 (fallback).** Every call returns the labels it was given, or the fallback for all of them, and the fallback only when `max`
different labels are stored; each use of the fallback is counted once. -/
theorem C90_fallback (max n : Nat) (shard : Str → Nat) (es : List TEv) :
    let s := (Trk.init n).run max shard es
    (∀ r ∈ s.results, r.2 = r.1.map (·.2) ∨
      (r.2 = List.replicate r.1.length ("label_overflow".toList.map Char.toNat) ∧ max ≤ s.labels.length)) ∧
    s.results.countP (fun r => r.2 != r.1.map (·.2)) ≤ s.overflow ∧
    s.overflow ≤ s.results.countP (fun r => r.2 == List.replicate r.1.length ("label_overflow".toList.map Char.toNat)) := by
  have h := inv_run es (inv_init max shard n)
  refine ⟨?_, h.lower, h.upper⟩
  intro r hr
  rcases h.results r hr with ⟨a, _⟩ | ⟨a, b⟩
  · exact Or.inl a
  · right
    refine ⟨a, ?_⟩
    rw [h.count]; omega

/-- What a thread does with a call whose labels are all stored. -/
def Accepted (s : Trk) (call : List (Str × Str)) : Prop := ∀ kv ∈ call, lkey kv ∈ s.labels

theorem accepted_step {max : Nat} {shard} {s : Trk} {call} (e : TEv) (h : Accepted s call) : Accepted (s.step max shard e) call :=
  fun kv hkv => labels_mono max shard s e _ (h kv hkv)

/-- A thread that works on an accepted call is only ever at the head of the loop. -/
def OnlyLoop (call : List (Str × Str)) (p : TPc) : Prop :=
  match p with
  | .idle => True
  | .loop c rest => c = call → ∀ kv ∈ rest, kv ∈ call
  | .vacant c kv rest => c = call → kv ∈ call ∧ ∀ x ∈ rest, x ∈ call
  | .admitted c kv rest => c = call → kv ∈ call ∧ ∀ x ∈ rest, x ∈ call
  | .inserted c _ rest => c = call → ∀ x ∈ rest, x ∈ call

theorem onlyLoop_step {max : Nat} {shard} {s : Trk} {call} (e : TEv) (h : ∀ p ∈ s.threads, OnlyLoop call p) :
    ∀ p ∈ (s.step max shard e).threads, OnlyLoop call p := by
  cases e with
  | call t pairs =>
    simp only [Trk.step]
    split
    · intro p hp
      rcases mem_set' hp with hp | hp
      · subst hp; intro hc; subst hc; exact fun kv h => h
      · exact h p hp
    · exact h
  | go t =>
    simp only [Trk.step, Trk.go]
    split
    · exact h
    · exact h
    · intro p hp
      rcases mem_set' hp with hp | hp
      · subst hp; trivial
      · exact h p hp
    · rename_i c kv rest ht
      have hm := h _ (List.mem_of_getElem? ht)
      split
      · split
        · intro p hp
          rcases mem_set' hp with hp | hp
          · subst hp; intro hc x hx; exact hm hc x (by simp [hx])
          · exact h p hp
        · intro p hp
          rcases mem_set' hp with hp | hp
          · subst hp; intro hc; exact ⟨hm hc kv (by simp), fun x hx => hm hc x (by simp [hx])⟩
          · exact h p hp
      · exact h
    · rename_i c kv rest ht
      have hm := h _ (List.mem_of_getElem? ht)
      split
      · intro p hp
        rcases mem_set' hp with hp | hp
        · subst hp; have := hm; exact this
        · exact h p hp
      · intro p hp
        rcases mem_set' hp with hp | hp
        · subst hp; trivial
        · exact h p hp
    · rename_i c kv rest ht
      have hm := h _ (List.mem_of_getElem? ht)
      intro p hp
      rcases mem_set' hp with hp | hp
      · subst hp; intro hc; exact (hm hc).2
      · exact h p hp
    · rename_i c kv rest ht
      have hm := h _ (List.mem_of_getElem? ht)
      intro p hp
      rcases mem_set' hp with hp | hp
      · subst hp; have := hm; exact this
      · exact h p hp

theorem results_step {max : Nat} {shard} {n : Nat} {s : Trk} {call} (hi : TInv max shard n s)
    (ha : Accepted s call) (hl : ∀ p ∈ s.threads, OnlyLoop call p) (e : TEv) :
    ∃ new, (s.step max shard e).results = s.results ++ new ∧ ∀ r ∈ new, r.1 = call → r.2 = call.map (·.2) := by
  cases e with
  | call t pairs =>
    simp only [Trk.step]
    split <;> exact ⟨[], by simp, by simp⟩
  | go t =>
    simp only [Trk.step, Trk.go]
    split
    · exact ⟨[], by simp, by simp⟩
    · exact ⟨[], by simp, by simp⟩
    · rename_i c ht
      refine ⟨_, rfl, ?_⟩
      intro r hr hc
      simp at hr; subst hr; simp at hc; subst hc; rfl
    · split
      · split <;> exact ⟨[], by simp, by simp⟩
      · exact ⟨[], by simp, by simp⟩
    · rename_i c kv rest ht
      have hm := List.mem_of_getElem? ht
      split
      · exact ⟨[], by simp, by simp⟩
      · refine ⟨_, rfl, ?_⟩
        intro r hr hc
        simp at hr; subst hr; simp at hc
        exfalso
        have := hl _ hm hc
        exact hi.fresh _ hm _ rfl (ha kv this.1)
    · exact ⟨[], by simp, by simp⟩
    · exact ⟨[], by simp, by simp⟩

theorem onlyLoop_init (n : Nat) (call) : ∀ p ∈ (Trk.init n).threads, OnlyLoop call p := by
  intro p hp; simp [Trk.init] at hp; rw [hp.2]; trivial

theorem onlyLoop_run {max : Nat} {shard} {call} : ∀ (es : List TEv) (s : Trk), (∀ p ∈ s.threads, OnlyLoop call p) →
    ∀ p ∈ (s.run max shard es).threads, OnlyLoop call p
  | [], _, h => h
  | e :: es, _, h => onlyLoop_run es _ (onlyLoop_step e h)

theorem results_run {max : Nat} {shard} {n : Nat} {call} : ∀ (es : List TEv) (s : Trk), TInv max shard n s → Accepted s call →
    (∀ p ∈ s.threads, OnlyLoop call p) →
    ∃ new, (s.run max shard es).results = s.results ++ new ∧ ∀ r ∈ new, r.1 = call → r.2 = call.map (·.2)
  | [], _, _, _, _ => ⟨[], by simp [Trk.run], by simp⟩
  | e :: es, s, hi, ha, hl => by
    obtain ⟨n1, e1, p1⟩ := results_step hi ha hl e
    obtain ⟨n2, e2, p2⟩ := results_run es _ (inv_step hi e) (accepted_step e ha) (onlyLoop_step e hl)
    refine ⟨n1 ++ n2, by rw [Trk.run, e2, e1, List.append_assoc], ?_⟩
    intro r hr
    rcases List.mem_append.1 hr with hr | hr
    · exact p1 r hr
    · exact p2 r hr

theorem run_append (max : Nat) (shard) : ∀ (es fs : List TEv) (s : Trk),
    s.run max shard (es ++ fs) = (s.run max shard es).run max shard fs
  | [], _, _ => rfl
  | _ :: es, fs, _ => run_append max shard es fs _

/-- **C90 (stays accepted).** Labels that were handed out once are never replaced by the fallback later: a call that returned its
labels keeps returning them in all further runs. (The hypothesis excludes only callers that pass the text of the fallback itself.) -/
theorem C90_stable (max n : Nat) (shard : Str → Nat) (es fs : List TEv) (call : List (Str × Str))
    (hc : (call, call.map (·.2)) ∈ ((Trk.init n).run max shard es).results)
    (hf : call.map (·.2) ≠ List.replicate call.length ("label_overflow".toList.map Char.toNat)) :
    ∃ new, ((Trk.init n).run max shard (es ++ fs)).results = ((Trk.init n).run max shard es).results ++ new ∧
      ∀ r ∈ new, r.1 = call → r.2 = call.map (·.2) := by
  have hi := inv_run es (inv_init max shard n)
  rw [run_append]
  refine results_run fs _ hi ?_ (onlyLoop_run es _ (onlyLoop_init n call))
  rcases hi.results _ hc with ⟨_, b⟩ | ⟨a, _⟩
  · exact b
  · exact absurd a hf

/-- **C90 (one series).** A late initialized metric keeps the series of its first use, whatever labels come later. -/
theorem C90_late (m : Late) (first : List Str) (later : List (List Str)) :
    later.foldl Late.get (m.get first) = m.get first := by
  induction later with
  | nil => rfl
  | cons x xs ih =>
    rw [List.foldl_cons]
    have : (m.get first).get x = m.get first := by cases m <;> rfl
    rw [this]; exact ih

theorem lkey_inj' (a b : Str × Str) (ha : 95 ∉ a.1) (hb : 95 ∉ b.1) (h : lkey a = lkey b) : a = b := by
  obtain ⟨a1, a2⟩ := a
  obtain ⟨b1, b2⟩ := b
  simp only [lkey] at h
  have hu : bytes "_" = [95] := by decide
  rw [hu] at h
  simp only at ha hb
  induction a1 generalizing b1 with
  | nil =>
    cases b1 with
    | nil => simpa using h
    | cons y ys => simp at h hb; exact absurd h.1.symm (fun e => hb.1 e.symm)
  | cons x xs ih =>
    cases b1 with
    | nil => simp at h ha; exact absurd h.1.symm (fun e => ha.1 e)
    | cons y ys =>
      simp at h ha hb
      have := ih (by simpa using ha.2) ys (by simpa using hb.2) (by simpa using h.2)
      simp at this
      simp [h.1, this.1, this.2]

/-- **C90 (all labels), partial.** The labels in use, over all names, are at most `max + n - 1`, if no label name contains an underscore.
Missing, because false: names with underscores, see `C90_collision_violated`. -/
theorem C90_all_partial (max n : Nat) (shard : Str → Nat) (es : List TEv) (ls : List (Str × Str)) (hl : ls.Nodup)
    (hu : ∀ l ∈ ls, 95 ∉ l.1)
    (hout : ∀ l ∈ ls, l.2 ≠ "label_overflow".toList.map Char.toNat ∧
      ∃ r ∈ ((Trk.init n).run max shard es).results, l ∈ (r.1.map (·.1)).zip r.2) :
    ls = [] ∨ ls.length ≤ max + n - 1 := by
  have h := inv_run es (inv_init max shard n)
  generalize hs : (Trk.init n).run max shard es = s at h hout
  have hsub : ∀ l ∈ ls, lkey l ∈ s.labels := by
    intro l hvm
    obtain ⟨hne, r, hr, hz⟩ := hout l hvm
    rcases h.results r hr with ⟨e, hk⟩ | ⟨e, _⟩
    · rw [e] at hz
      have hz' : l ∈ r.1 := by
        have : (r.1.map (·.1)).zip (r.1.map (·.2)) = r.1 := by
          have := List.zip_unzip r.1
          rwa [List.unzip_eq_map] at this
        rw [this] at hz; exact hz
      exact hk _ hz'
    · rw [e] at hz
      have := (List.of_mem_zip (a := l.1) (b := l.2) hz).2
      rw [List.mem_replicate] at this
      exact absurd this.2 hne
  have hlen : (ls.map lkey).length ≤ s.labels.length := by
    apply List.Subperm.length_le
    apply List.Nodup.subperm
    · exact hl.map_on (fun x hx y hy e => lkey_inj' x y (hu x hx) (hu y hy) e)
    · intro k hk
      obtain ⟨v, hv', rfl⟩ := List.mem_map.1 hk
      exact hsub v hv'
  simp at hlen
  rcases labels_bound h with h | h
  · left; exact List.length_eq_zero_iff.1 (by omega)
  · right; omega

/-- **C90 violated.** One thread, a limit of one label: the labels `a = b_c` and `a_b = c` are both handed out, because the keys of
both are the text `a_b_c`. -/
theorem C90_collision_violated :
    ∃ es : List TEv, ∀ shard, ((Trk.init 1).run 1 shard es).results.map (fun r => (r.1.map (·.1)).zip r.2) =
      [[(bytes "a", bytes "b_c")], [(bytes "a_b", bytes "c")]] := by
  refine ⟨[.call 0 [(bytes "a", bytes "b_c")], .go 0, .go 0, .go 0, .go 0, .go 0,
    .call 0 [(bytes "a_b", bytes "c")], .go 0, .go 0], ?_⟩
  intro shard
  have h1 : bytes "a_b" ++ bytes "_" ++ bytes "c" = bytes "a" ++ bytes "_" ++ bytes "b_c" := by decide
  simp [Trk.run, Trk.step, Trk.go, Trk.init, Trk.free, TPc.locked, lkey, h1]

/-- The bound of `C90_limit` is met: two threads exceed a limit of one by one. -/
theorem C90_race_tight : ∃ es : List TEv, ∃ shard, ((Trk.init 2).run 1 shard es).labels.length = 1 + 2 - 1 :=
  ⟨[.call 0 [([1], [1])], .call 1 [([1], [2])], .go 0, .go 1, .go 0, .go 1, .go 0, .go 1], fun k => k.sum, by decide⟩

/-- A run in which the limit of two is reached and a third label gets the fallback, while the first is still accepted. -/
example :
    let s := (Trk.init 1).run 2 (fun k => k.sum) [.call 0 [([1], [1]), ([2], [5])], .go 0, .go 0, .go 0, .go 0, .go 0, .go 0, .go 0,
      .go 0, .go 0, .call 0 [([1], [2])], .go 0, .go 0, .call 0 [([2], [5])], .go 0, .go 0]
    s.results.map (·.2) = [[[1], [5]], [bytes "label_overflow"], [[5]]] ∧ s.overflow = 1 ∧ s.labels.length = 2 := by decide

end Verif.Server
