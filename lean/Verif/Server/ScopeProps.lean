import Verif.Server.Scope
import Verif.Server.LabelsProps
import Mathlib.Data.List.Basic

/-
C91: one metric per identity; scopes compose.  C92: gauges of guards are balanced.
-/
namespace Verif.Server

/-! ### Names and labels of nested scopes -/

/-- The parts joined with `:`. -/
def joined : List Str → Str
  | [] => []
  | [x] => x
  | x :: y :: rest => x ++ [58] ++ joined (y :: rest)

theorem joined_append (y : Str) : ∀ xs : List Str, xs ≠ [] → joined (xs ++ [y]) = joined xs ++ [58] ++ y
  | [], h => absurd rfl h
  | [x], _ => rfl
  | x :: z :: rest, _ => by
    have := joined_append y (z :: rest) (by simp)
    simp only [List.cons_append, joined] at this ⊢
    rw [this]; simp

theorem joined_ne_nil : ∀ (xs : List Str), (∀ x ∈ xs, x ≠ []) → xs ≠ [] → joined xs ≠ []
  | [], _, h => absurd rfl h
  | [x], h, _ => h x (by simp)
  | x :: y :: rest, h, _ => by simp [joined]

theorem colon : bytes ":" = [58] := by decide

theorem metricName_joined (s : Scope) (xs : List Str) (hx : ∀ x ∈ xs, x ≠ []) (hs : s.scope = joined xs) (name : Str) :
    s.metricName name = joined (xs ++ [name]) := by
  unfold Scope.metricName
  by_cases he : xs = []
  · subst he; simp [joined] at hs; simp [hs, joined]
  · rw [if_neg (by rw [hs]; exact joined_ne_nil xs hx he), joined_append name xs he, hs, colon]

theorem scope_joined : ∀ (subs : List (Str × Labels)) (s : Scope) (xs : List Str), (∀ x ∈ xs, x ≠ []) → s.scope = joined xs →
    (subs.foldl (fun s e => s.sub e.1 e.2) s).scope = joined (xs ++ (subs.map (·.1)).filter (· ≠ []))
  | [], s, xs, _, hs => by simpa using hs
  | e :: subs, s, xs, hx, hs => by
    rw [List.foldl_cons]
    by_cases he : e.1 = []
    · rw [scope_joined subs (s.sub e.1 e.2) xs hx (by simp [Scope.sub, he, hs])]
      simp [he]
    · rw [scope_joined subs (s.sub e.1 e.2) (xs ++ [e.1])
        (by intro x h; rcases List.mem_append.1 h with h | h; exact hx x h; simp at h; rw [h]; exact he)
        (by simp only [Scope.sub, if_neg he]; exact metricName_joined s xs hx hs e.1)]
      simp [he]

/-- **C91 (name).** The full name of a metric is the names of its scopes, outermost first and without the empty ones, and its own name,
joined with colons. -/
theorem C91_name (root : Str) (subs : List (Str × Labels)) (name : Str) :
    (subs.foldl (fun s e => s.sub e.1 e.2) (Scope.root root)).metricName name =
      joined ((root :: subs.map (·.1)).filter (· ≠ []) ++ [name]) := by
  by_cases hr : root = []
  · have := scope_joined subs (Scope.root root) [] (by simp) (by simp [Scope.root, hr, joined])
    rw [metricName_joined _ _ _ this]
    · simp [hr]
    · simp
  · have := scope_joined subs (Scope.root root) [root] (by simpa using hr) (by simp [Scope.root, joined])
    rw [metricName_joined _ _ _ this]
    · simp [hr]
    · intro x hx
      simp only [List.singleton_append, List.mem_cons, List.mem_filter, decide_eq_true_eq] at hx
      rcases hx with rfl | hx
      · exact hr
      · exact hx.2

example : (([(bytes "b", []), ([], []), (bytes "c", [])].foldl (fun s e => s.sub e.1 e.2) (Scope.root (bytes "a"))).metricName
    (bytes "d")) = bytes "a:b:c:d" := by decide

theorem get_append (a b : Labels) (k : Str) : Labels.get (a ++ b) k = (Labels.get a k).or (Labels.get b k) := by
  unfold Labels.get
  rw [List.find?_append]
  cases a.find? fun kv => kv.1 == k <;> simp

theorem labels_foldl (k : Str) : ∀ (subs : List (Str × Labels)) (s : Scope),
    Labels.get (subs.foldl (fun s e => s.sub e.1 e.2) s).labels k =
      ((subs.reverse.findSome? fun e => (e.2.find? fun kv => kv.1 == k).map (·.2))).or (Labels.get s.labels k)
  | [], s => by simp
  | e :: subs, s => by
    rw [List.foldl_cons, labels_foldl k subs]
    simp only [Scope.sub, Scope.finalLabels, get_append, List.reverse_cons, List.findSome?_append, List.findSome?_cons,
      List.findSome?_nil]
    rw [← Option.or_assoc]
    congr 2
    unfold Labels.get
    cases (Option.map (fun x => x.snd) (List.find? (fun kv => kv.fst == k) e.snd)) <;> rfl

/-- **C91 (labels).** The value of a label is that given with the metric or, failing that, by the innermost scope that sets it. -/
theorem C91_labels (root : Str) (subs : List (Str × Labels)) (own : Labels) (k : Str) :
    (((subs.foldl (fun s e => s.sub e.1 e.2) (Scope.root root)).finalLabels own).find? fun kv => kv.1 == k).map (·.2) =
      (own :: (subs.map (·.2)).reverse).findSome? fun l => (l.find? fun kv => kv.1 == k).map (·.2) := by
  show Labels.get _ k = _
  rw [Scope.finalLabels, get_append, labels_foldl k]
  rw [List.findSome?_cons, ← List.map_reverse, List.findSome?_map]
  unfold Labels.get
  have h0 : Labels.get (Scope.root root).labels k = none := rfl
  unfold Labels.get at h0
  rw [h0]
  cases (Option.map (fun x => x.snd) (List.find? (fun kv => kv.fst == k) own)) with
  | some v => rfl
  | none => simp [Function.comp_def]

/-! ### Identity -/

theorem get_none_of_not_mem {l : Labels} {k : Str} (h : ∀ kv ∈ l, kv.1 ≠ k) : Labels.get l k = none := by
  unfold Labels.get
  rw [List.find?_eq_none.2]
  · rfl
  · intro kv hkv; simpa using h kv hkv

theorem same_iff (a b : Labels) : Labels.same a b = true ↔ ∀ k, Labels.get a k = Labels.get b k := by
  unfold Labels.same
  rw [List.all_eq_true]
  constructor
  · intro h k
    by_cases hk : ∃ kv ∈ a ++ b, kv.1 = k
    · obtain ⟨kv, hm, rfl⟩ := hk
      simpa using h kv hm
    · have : ∀ kv ∈ a ++ b, kv.1 ≠ k := fun kv hm e => hk ⟨kv, hm, e⟩
      rw [get_none_of_not_mem (fun kv hm => this kv (by simp [hm])), get_none_of_not_mem (fun kv hm => this kv (by simp [hm]))]
  · intro h kv _; simp [h kv.1]

theorem sameNames_iff (a b : Labels) :
    Labels.sameNames a b = true ↔ ∀ k, (Labels.get a k).isSome = (Labels.get b k).isSome := by
  unfold Labels.sameNames
  rw [List.all_eq_true]
  constructor
  · intro h k
    by_cases hk : ∃ kv ∈ a ++ b, kv.1 = k
    · obtain ⟨kv, hm, rfl⟩ := hk
      simpa using h kv hm
    · have : ∀ kv ∈ a ++ b, kv.1 ≠ k := fun kv hm e => hk ⟨kv, hm, e⟩
      rw [get_none_of_not_mem (fun kv hm => this kv (by simp [hm])), get_none_of_not_mem (fun kv hm => this kv (by simp [hm]))]
  · intro h kv _; simp [h kv.1]

/-- Two maps give the same value for every name: the property, without the model's comparison. -/
def SameMap (a b : Labels) : Prop :=
  ∀ k, ((a.find? fun kv => kv.1 == k).map fun kv => kv.2) = ((b.find? fun kv => kv.1 == k).map fun kv => kv.2)

theorem SameMap.refl (a : Labels) : SameMap a a := fun _ => rfl
theorem SameMap.symm {a b : Labels} (h : SameMap a b) : SameMap b a := fun k => (h k).symm
theorem SameMap.trans {a b c : Labels} (h : SameMap a b) (h' : SameMap b c) : SameMap a c := fun k => (h k).trans (h' k)

theorem same_iff' (a b : Labels) : Labels.same a b = true ↔ SameMap a b := same_iff a b

/-- The metric `m` is the one that `u` means. -/
def Meant (m : Metric) (u : Use) : Prop := m.kind = u.kind ∧ m.name = u.name ∧ SameMap m.labels u.labels

/-- Each metric of the registry has a name and labels of its own. -/
def RInv (r : Registry) : Prop :=
  ∀ (i j : Nat) (m m' : Metric), r[i]? = some m → r[j]? = some m' → m.name = m'.name → SameMap m.labels m'.labels → i = j

theorem lookup_some {r : Registry} {k n l i} (h : r.lookup k n l = some i) :
    ∃ m, r[i]? = some m ∧ m.kind = k ∧ m.name = n ∧ SameMap m.labels l := by
  unfold Registry.lookup at h
  rw [List.findIdx?_eq_some_iff_getElem] at h
  obtain ⟨hi, hp, _⟩ := h
  refine ⟨r[i], by simp [hi], ?_⟩
  simp only [Bool.and_eq_true, decide_eq_true_eq, same_iff'] at hp
  exact ⟨hp.1.1, hp.1.2, hp.2⟩

theorem request_spec (r : Registry) (hr : RInv r) (k n l) :
    RInv (r.request k n l).1 ∧
    ((∃ i m, (r.request k n l) = (r, some i) ∧ r[i]? = some m ∧ m.kind = k ∧ m.name = n ∧ SameMap m.labels l) ∨
     (r.request k n l = (r ++ [⟨k, n, l, 0⟩], some r.length) ∧ ∀ m ∈ r, m.name = n → ¬ SameMap m.labels l) ∨
     (r.request k n l = (r, none))) := by
  unfold Registry.request
  split
  · rename_i i hi
    obtain ⟨m, hm⟩ := lookup_some hi
    exact ⟨hr, Or.inl ⟨i, m, rfl, hm⟩⟩
  · split
    · exact ⟨hr, Or.inr (Or.inr rfl)⟩
    · rename_i hn
      have hno : ∀ m ∈ r, m.name = n → ¬ SameMap m.labels l := by
        intro m hm he hs
        apply hn
        unfold Registry.refuses
        rw [List.any_eq_true]
        exact ⟨m, hm, by simp [he, (same_iff' _ _).2 hs]⟩
      refine ⟨?_, Or.inr (Or.inl ⟨rfl, hno⟩)⟩
      intro i j m m' hi hj hname hs
      have lt : ∀ (i : Nat) (m : Metric), (r ++ [⟨k, n, l, 0⟩])[i]? = some m →
          (i < r.length ∧ r[i]? = some m) ∨ (i = r.length ∧ m = ⟨k, n, l, 0⟩) := by
        intro i m hi
        by_cases h : i < r.length
        · rw [List.getElem?_append_left h] at hi; exact Or.inl ⟨h, hi⟩
        · rw [List.getElem?_append_right (by omega)] at hi
          right
          have : i - r.length = 0 := by
            by_contra hc
            obtain ⟨q, hq⟩ := Nat.exists_eq_succ_of_ne_zero hc
            rw [hq] at hi; simp at hi
          rw [this] at hi; simp at hi
          exact ⟨by omega, hi.symm⟩
      rcases lt i m hi with ⟨h1, e1⟩ | ⟨h1, e1⟩ <;> rcases lt j m' hj with ⟨h2, e2⟩ | ⟨h2, e2⟩
      · exact hr i j m m' e1 e2 hname hs
      · subst e2; exact absurd hs (hno m (List.mem_of_getElem? e1) hname)
      · subst e1; exact absurd hs.symm (hno m' (List.mem_of_getElem? e2) hname.symm)
      · omega

theorem add_get (r : Registry) (i : Nat) (n : Int) (j : Nat) :
    (r.add i n)[j]? = (r[j]?).map fun m => { m with value := m.value + (if i = j then n else 0) } := by
  unfold Registry.add
  rw [List.getElem?_modify]
  by_cases h : i = j
  · simp only [h, if_true]
    cases r[j]? <;> rfl
  · simp only [h, if_false]
    cases r[j]? with
    | none => rfl
    | some m => cases m; simp

theorem add_inv {r : Registry} (h : RInv r) (i : Nat) (n : Int) : RInv (r.add i n) := by
  intro a b m m' ha hb hname hs
  rw [add_get] at ha hb
  obtain ⟨x, hx, rfl⟩ := Option.map_eq_some_iff.1 ha
  obtain ⟨y, hy, rfl⟩ := Option.map_eq_some_iff.1 hb
  exact h a b x y hx hy hname hs

/-- What a use does: it panics and changes nothing, or adds to the metric it means, which is created if there was none. -/
theorem use_spec (r : Registry) (hr : RInv r) (u : Use) :
    RInv (r.use u).1 ∧
    (((r.use u) = (r, none)) ∨
     (∃ i m, (r.use u).2 = some i ∧ (r.use u).1[i]? = some m ∧ Meant m u ∧
       (∀ (j : Nat) (x : Metric), r[j]? = some x →
         (r.use u).1[j]? = some { x with value := x.value + (if i = j then u.amount else 0) }) ∧
       (∀ (j : Nat) (x : Metric), (r.use u).1[j]? = some x → r.length ≤ j → j = i ∧ x.value = u.amount))) := by
  obtain ⟨h1, h2⟩ := request_spec r hr u.kind u.name u.labels
  rcases h2 with ⟨i, m, e, hm, hk, hn, hl⟩ | ⟨e, hno⟩ | e
  · have : r.use u = (r.add i u.amount, some i) := by simp [Registry.use, e]
    rw [this]
    refine ⟨add_inv hr _ _, Or.inr ⟨i, { m with value := m.value + u.amount }, rfl, ?_, ⟨hk, hn, hl⟩, ?_, ?_⟩⟩
    · rw [add_get, hm]; simp
    · intro j x hx; rw [add_get, hx]; rfl
    · intro j x hx hj
      rw [add_get] at hx
      rw [List.getElem?_eq_none (by omega)] at hx
      cases hx
  · have : r.use u = ((r ++ [(⟨u.kind, u.name, u.labels, 0⟩ : Metric)] : Registry).add r.length u.amount, some r.length) := by
      simp [Registry.use, e]
    rw [this]
    rw [e] at h1
    refine ⟨add_inv h1 _ _, Or.inr ⟨r.length, ⟨u.kind, u.name, u.labels, u.amount⟩, rfl, ?_, ⟨rfl, rfl, SameMap.refl _⟩, ?_, ?_⟩⟩
    · rw [add_get]; simp
    · intro j x hx
      have hlt : j < r.length := (List.getElem?_eq_some_iff.1 hx).1
      rw [add_get, List.getElem?_append_left hlt, hx]; rfl
    · intro j x hx hj
      rw [add_get] at hx
      by_cases hj' : j = r.length
      · subst hj'
        simp at hx
        refine ⟨rfl, ?_⟩
        rw [← hx]
      · rw [List.getElem?_eq_none (by simp; omega)] at hx
        cases hx
  · have : r.use u = (r, none) := by simp [Registry.use, e]
    rw [this]
    exact ⟨hr, Or.inl rfl⟩

/-- What was added through handle `i`. -/
def addedTo (i : Nat) (l : List (Use × Option Nat)) : Int :=
  (l.map fun e => if e.2 = some i then e.1.amount else 0).sum

theorem uses_spec : ∀ (us : List Use) (r : Registry), RInv r →
    RInv (r.uses us).1 ∧
    (∀ (j : Nat) (x : Metric), r[j]? = some x → (r.uses us).1[j]? = some { x with value := x.value + addedTo j (r.uses us).2 }) ∧
    (∀ (j : Nat) (x : Metric), (r.uses us).1[j]? = some x → r.length ≤ j → x.value = addedTo j (r.uses us).2) ∧
    (∀ e ∈ (r.uses us).2, ∀ i, e.2 = some i → ∃ m, (r.uses us).1[i]? = some m ∧ Meant m e.1) ∧
    (r.uses us).2.map (·.1) = us
  | [], r, h => by
    refine ⟨h, ?_, ?_, by simp [Registry.uses], rfl⟩
    · intro j x hx
      simp only [Registry.uses, addedTo, List.map_nil, List.sum_nil, Int.add_zero]
      exact hx
    · intro j x hx hj
      simp only [Registry.uses] at hx
      rw [List.getElem?_eq_none hj] at hx; cases hx
  | u :: us, r, h => by
    obtain ⟨a1, a2⟩ := use_spec r h u
    obtain ⟨b1, b2, b3, b4, b5⟩ := uses_spec us (r.use u).1 a1
    have hcons : ∀ j, addedTo j (r.uses (u :: us)).2 =
        (if (r.use u).2 = some j then u.amount else 0) + addedTo j ((r.use u).1.uses us).2 := by
      intro j; simp [Registry.uses, addedTo]
    have hfst : (r.uses (u :: us)).1 = ((r.use u).1.uses us).1 := rfl
    have hsnd : (r.uses (u :: us)).2 = (u, (r.use u).2) :: ((r.use u).1.uses us).2 := rfl
    refine ⟨b1, ?_, ?_, ?_, ?_⟩
    · intro j x hx
      rw [hcons, hfst]
      rcases a2 with e | ⟨i, m, e, hm, hmeant, hold, hnew⟩
      · rw [b2 j x (by rw [e]; exact hx)]
        rw [e]; simp
      · rw [b2 j _ (hold j x hx), e]
        by_cases hij : i = j <;> simp [hij, Int.add_assoc]
    · intro j x hx hj
      rw [hcons]
      rw [hfst] at hx
      rcases a2 with e | ⟨i, m, e, hm, hmeant, hold, hnew⟩
      · rw [b3 j x hx (by rw [e]; exact hj)]
        rw [e]; simp
      · by_cases hlt : (r.use u).1.length ≤ j
        · rw [b3 j x hx hlt, e]
          have hij : i ≠ j := by
            intro hc; subst hc
            have := (List.getElem?_eq_some_iff.1 hm).1
            omega
          simp [hij]
        · have hlt' : j < (r.use u).1.length := by omega
          have hy : (r.use u).1[j]? = some (r.use u).1[j] := by simp [hlt']
          obtain ⟨hji, hv⟩ := hnew j _ hy hj
          have := b2 j _ hy
          rw [this] at hx
          simp at hx
          have hij : (some i : Option Nat) = some j := by rw [hji]
          rw [← hx, e, if_pos hij]
          show _ + _ = _
          rw [hv]
    · intro e he i hi
      rw [hsnd] at he
      rw [hfst]
      rcases List.mem_cons.1 he with rfl | he
      · simp only at hi
        rcases a2 with e | ⟨i', m, e, hm, hmeant, _, _⟩
        · rw [e] at hi; cases hi
        · rw [e] at hi; simp at hi; subst hi
          exact ⟨_, b2 i' m hm, hmeant⟩
      · exact b4 e he i hi
    · rw [hsnd]; simp [b5]

/-- **C91 (identity).** Two uses, at any time, work on the same metric exactly if they have the same kind, the same full name and the
same labels. -/
theorem C91_identity (us : List Use) (a b : Use) (i j : Nat)
    (ha : (a, some i) ∈ (Registry.uses [] us).2) (hb : (b, some j) ∈ (Registry.uses [] us).2) :
    i = j ↔ a.kind = b.kind ∧ a.name = b.name ∧ SameMap a.labels b.labels := by
  obtain ⟨h1, _, _, h4, _⟩ := uses_spec us [] (by intro i j m m' h; simp at h)
  obtain ⟨m, hm, hma⟩ := h4 _ ha i rfl
  obtain ⟨m', hm', hmb⟩ := h4 _ hb j rfl
  constructor
  · intro e; subst e
    rw [hm] at hm'; cases hm'
    exact ⟨hma.1.symm.trans hmb.1, hma.2.1.symm.trans hmb.2.1, hma.2.2.symm.trans hmb.2.2⟩
  · rintro ⟨_, hn, hl⟩
    exact h1 i j m m' hm hm' (hma.2.1.trans (hn.trans hmb.2.1.symm)) (hma.2.2.trans (hl.trans hmb.2.2.symm))

/-- **C91 (gathered once).** No two gathered metrics have the same name and labels. -/
theorem C91_once (us : List Use) (i j : Nat) (m m' : Metric)
    (hi : (Registry.uses [] us).1[i]? = some m) (hj : (Registry.uses [] us).1[j]? = some m') (hn : m.name = m'.name)
    (hl : SameMap m.labels m'.labels) : i = j :=
  (uses_spec us [] (by intro i j m m' h; simp at h)).1 i j m m' hi hj hn hl

/-- The total of the uses of an identity that did not panic. -/
def total (l : List (Use × Option Nat)) (p : Use → Bool) : Int :=
  (l.map fun e => if e.2.isSome && p e.1 then e.1.amount else 0).sum

/-- **C91 (sum).** A gathered metric shows the sum of everything that was added under its kind, name and labels, from wherever. -/
theorem C91_sum (us : List Use) (i : Nat) (m : Metric) (hi : (Registry.uses [] us).1[i]? = some m) (p : Use → Bool)
    (hp : ∀ u, p u = true ↔ m.kind = u.kind ∧ m.name = u.name ∧ SameMap m.labels u.labels) :
    m.value = ((Registry.uses [] us).2.map fun e => if e.2.isSome && p e.1 then e.1.amount else 0).sum := by
  obtain ⟨h1, _, h3, h4, _⟩ := uses_spec us [] (by intro i j m m' h; simp at h)
  rw [h3 i m hi (Nat.zero_le _)]
  unfold addedTo
  congr 1
  apply List.map_congr_left
  intro e he
  obtain ⟨u, o⟩ := e
  cases o with
  | none => simp
  | some j =>
    obtain ⟨m', hm', hmu⟩ := h4 _ he j rfl
    simp only [Option.isSome_some, Bool.true_and, Option.some.injEq]
    by_cases hij : j = i
    · subst hij
      rw [hi] at hm'; cases hm'
      rw [if_pos rfl, if_pos ((hp u).2 hmu)]
    · rw [if_neg hij, if_neg]
      intro hc
      have := (hp u).1 hc
      apply hij
      exact h1 j i m' m hm' hi (hmu.2.1.trans this.2.1.symm) (hmu.2.2.trans this.2.2.symm)

/-- The names of the labels are the same. -/
def SameNames (a b : Labels) : Prop :=
  ∀ k, ((a.find? fun kv => kv.1 == k).isSome) = ((b.find? fun kv => kv.1 == k).isSome)

theorem sameNames_iff' (a b : Labels) : Labels.sameNames a b = true ↔ SameNames a b := by
  rw [sameNames_iff]; simp [SameNames, Labels.get]

theorem uses_from (us : List Use) : ∀ (r : Registry) (P : Use → Prop),
    (∀ m ∈ r, ∃ u, P u ∧ Meant m u ∧ SameNames m.labels u.labels) →
    (∀ a b, P a → P b → a.name = b.name → a.kind = b.kind ∧ SameNames a.labels b.labels) →
    (∀ u ∈ us, P u) →
    ∀ e ∈ (r.uses us).2, e.2.isSome = true := by
  induction us with
  | nil => intro r P _ _ _ e he; simp [Registry.uses] at he
  | cons u us ih =>
    intro r P hr hP hu e he
    have hnr : ∀ l, r.lookup u.kind u.name u.labels = none → r.refuses u.name l = false ∨ l ≠ u.labels := by
      intro l hl
      by_cases hlu : l = u.labels
      · left
        subst hlu
        by_contra hc
        rw [Bool.not_eq_false] at hc
        unfold Registry.refuses at hc
        rw [List.any_eq_true] at hc
        obtain ⟨m, hm, hc⟩ := hc
        simp only [Bool.and_eq_true, decide_eq_true_eq, Bool.or_eq_true, Bool.not_eq_true', ← Bool.not_eq_true] at hc
        obtain ⟨x, hx, hmx, hnx⟩ := hr m hm
        obtain ⟨hk, hn⟩ := hP x u hx (hu u (by simp)) (hmx.2.1.symm.trans hc.1)
        rcases hc.2 with h | h
        · unfold Registry.lookup at hl
          rw [List.findIdx?_eq_none_iff] at hl
          have := hl m hm
          simp [hmx.1.trans hk, hc.1, h] at this
        · apply h
          rw [sameNames_iff']
          intro k; rw [hnx k, hn k]
      · right; exact hlu
    have key : (r.use u).2.isSome = true ∧ ∀ m ∈ (r.use u).1, ∃ x, P x ∧ Meant m x ∧ SameNames m.labels x.labels := by
      have hadd : ∀ (r : Registry) (i n), (∀ m ∈ r, ∃ u, P u ∧ Meant m u ∧ SameNames m.labels u.labels) →
          ∀ m ∈ r.add i n, ∃ u, P u ∧ Meant m u ∧ SameNames m.labels u.labels := by
        intro r i n h m hm
        obtain ⟨j, hj⟩ := List.mem_iff_getElem?.1 hm
        rw [add_get] at hj
        obtain ⟨x, hx, rfl⟩ := Option.map_eq_some_iff.1 hj
        obtain ⟨u, a, b, c⟩ := h x (List.mem_of_getElem? hx)
        exact ⟨u, a, b, c⟩
      unfold Registry.use Registry.request
      cases hl : r.lookup u.kind u.name u.labels with
      | some i => exact ⟨rfl, hadd r i _ hr⟩
      | none =>
        have : r.refuses u.name u.labels = false := by
          rcases hnr u.labels hl with h | h
          · exact h
          · exact absurd rfl h
        simp only [this, Bool.false_eq_true, if_false]
        refine ⟨rfl, hadd _ _ _ ?_⟩
        intro m hm
        rcases List.mem_append.1 hm with hm | hm
        · exact hr m hm
        · simp at hm; subst hm
          exact ⟨u, hu u (by simp), ⟨rfl, rfl, SameMap.refl _⟩, fun _ => rfl⟩
    simp only [Registry.uses] at he
    rcases List.mem_cons.1 he with rfl | he
    · exact key.1
    · exact ih _ P key.2 hP (fun x hx => hu x (by simp [hx])) e he

/-- **C91 (no panic), partial.** No use panics, if uses with the same full name have the same kind and the same label names. Missing,
because false: uses that do not keep to this, see `C91_label_names_violated` and `C91_kind_violated`. -/
theorem C91_no_panic_partial (us : List Use)
    (h : ∀ a ∈ us, ∀ b ∈ us, a.name = b.name → a.kind = b.kind ∧ SameNames a.labels b.labels) :
    ∀ e ∈ (Registry.uses [] us).2, e.2.isSome = true :=
  uses_from us [] (· ∈ us) (by simp) (fun a b ha hb => h a ha b hb) (fun _ h => h)

/-- **C91 violated.** The same counter with another label name: the request panics. -/
theorem C91_label_names_violated : ∃ us : List Use, ∃ u, (u, none) ∈ (Registry.uses [] us).2 ∧ (∀ x ∈ us, x.kind = .counter) :=
  ⟨[⟨.counter, bytes "requests", [(bytes "host", bytes "a")], 1⟩, ⟨.counter, bytes "requests", [(bytes "path", bytes "/")], 1⟩],
   ⟨.counter, bytes "requests", [(bytes "path", bytes "/")], 1⟩, by decide, by decide⟩

/-- **C91 violated.** A gauge with the name of a counter: the request panics. -/
theorem C91_kind_violated : ∃ us : List Use, ∃ u, (u, none) ∈ (Registry.uses [] us).2 ∧ (∀ x ∈ us, x.labels = []) :=
  ⟨[⟨.counter, bytes "requests", [], 1⟩, ⟨.gauge, bytes "requests", [], 1⟩], ⟨.gauge, bytes "requests", [], 1⟩, by decide, by decide⟩

/-- Two scopes lead to the same counter; another label value is another counter. -/
example : (Registry.uses [] [⟨.counter, bytes "a:b", [([1], [2])], 3⟩, ⟨.counter, bytes "a:b", [([1], [5])], 1⟩,
    ⟨.counter, bytes "a:b", [([1], [2])], 4⟩]).1.map (·.value) = [7, 1] := by decide

/-- **C91 (chain).** Gathering gives the own metrics and those of the chained collectors, all of them, once and in order. -/
theorem C91_chain (own : Registry) (chained : List Registry) : gather own chained = (own :: chained).flatten := rfl

/-! ### C92 -/

/-- The guards that have not yet decreased the gauge. -/
def liveGuards (l : List Guard) : Nat := l.countP (· != .dropped)

structure GInv (g0 : Int) (s : Gauged) : Prop where
  value : s.gauge = g0 + liveGuards s.guards
  ok : s.failed = false

theorem ginv_step {g0 : Int} (h0 : 0 ≤ g0) {s : Gauged} (h : GInv g0 s) (e : GEv) : GInv g0 (s.step e) := by
  obtain ⟨h1, h2⟩ := h
  cases e with
  | new =>
    refine ⟨?_, h2⟩
    simp only [Gauged.step, liveGuards, List.countP_append, h1]
    simp; omega
  | check i =>
    simp only [Gauged.step]
    split
    · rename_i hi
      have c := countP_set' (· != Guard.dropped) s.guards i _ Guard.checked hi
      simp at c
      have hpos : 0 < liveGuards s.guards := by
        unfold liveGuards
        rw [List.countP_pos_iff]
        exact ⟨_, List.mem_of_getElem? hi, by decide⟩
      refine ⟨?_, ?_⟩
      · simp only [liveGuards] at h1 ⊢; rw [c]; exact h1
      · simp only [h2, Bool.false_or, decide_eq_false_iff_not, Decidable.not_not]
        rw [h1]; omega
    · exact ⟨h1, h2⟩
  | sub i =>
    simp only [Gauged.step]
    split
    · rename_i hi
      have c := countP_set' (· != Guard.dropped) s.guards i _ Guard.dropped hi
      simp at c
      refine ⟨?_, h2⟩
      simp only [liveGuards] at h1 ⊢
      omega
    · exact ⟨h1, h2⟩

theorem ginv_run {g0 : Int} (h0 : 0 ≤ g0) : ∀ (es : List GEv) {s : Gauged}, GInv g0 s → GInv g0 (s.run es)
  | [], _, h => h
  | e :: es, _, h => ginv_run h0 es (ginv_step h0 h e)

/-- **C92.** However the guards of a gauge are created and destroyed by any threads, the gauge is its value before plus the number of
guards that are alive (or not yet through with their destructor); no assertion fails; when all are gone it has its old value. -/
theorem C92_gauge (g0 : Int) (h0 : 0 ≤ g0) (es : List GEv) :
    let s := Gauged.run ⟨g0, [], false⟩ es
    s.gauge = g0 + (s.guards.countP (· != .dropped) : Nat) ∧ s.failed = false ∧
      ((∀ g ∈ s.guards, g = .dropped) → s.gauge = g0) := by
  have h := ginv_run h0 es (s := ⟨g0, [], false⟩) ⟨by simp [liveGuards], rfl⟩
  refine ⟨h.value, h.ok, ?_⟩
  intro hd
  have h3 := h.value
  have : liveGuards (Gauged.run ⟨g0, [], false⟩ es).guards = 0 := by
    unfold liveGuards
    rw [List.countP_eq_zero]
    intro g hg; simp [hd g hg]
  rw [h3, this]; simp

/-- Each constructor counts one guard, and each guard is counted once: the number of guards is the number of constructions. -/
theorem C92_guards (g0 : Int) (es : List GEv) :
    (Gauged.run ⟨g0, [], false⟩ es).guards.length = es.countP (· == .new) := by
  have : ∀ (es : List GEv) (s : Gauged), (s.run es).guards.length = s.guards.length + es.countP (· == .new) := by
    intro es
    induction es with
    | nil => intro s; simp [Gauged.run]
    | cons e es ih =>
      intro s
      rw [Gauged.run, ih]
      cases e with
      | new => simp [Gauged.step]; omega
      | check i => simp only [Gauged.step]; split <;> simp
      | sub i => simp only [Gauged.step]; split <;> simp
  simpa using this es ⟨g0, [], false⟩

example : (Gauged.run ⟨0, [], false⟩ [.new, .new, .check 0, .check 1, .sub 0]).gauge = 1 := by decide

end Verif.Server
