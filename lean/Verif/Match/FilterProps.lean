import Verif.Match.Filter
import Verif.Match.TreeProps

/-
C32: filters.
-/
namespace Verif.Match

/-! ### Which filters are applied, and in which order -/

/-- A transform that can be used. -/
def TransformValid (x : Ext) : TransformCfg → Prop
  | .missing => False
  | .capture _ => True
  | .set _ v t _ => (∃ sv, v = some (some sv)) ∧ t ≠ .unknown
  | .remove _ => True
  | .regex _ p _ => x.regexValid p = true

/-- A filter that can be used: it has a valid matcher and only valid transforms. -/
def FilterValid (x : Ext) (c : FilterCfg) : Prop :=
  (∃ m, c.matcher = some m ∧ ValidCfg (BaseValid x) m) ∧ ∀ t ∈ c.transforms, TransformValid x t

theorem transform_valid (x : Ext) (t : TransformCfg) : (Transform.new x t).isSome = true ↔ TransformValid x t := by
  cases t with
  | missing => simp [Transform.new, TransformValid]
  | capture n => simp [Transform.new, TransformValid]
  | set n v ty o =>
    cases v with
    | none => simp [Transform.new, TransformValid]
    | some v =>
      cases v with
      | none => simp [Transform.new, TransformValid]
      | some sv => cases ty <;> simp [Transform.new, TransformValid]
  | remove n => simp [Transform.new, TransformValid]
  | regex n p s => simp [Transform.new, TransformValid]

theorem transforms_valid (x : Ext) (l : List TransformCfg) :
    (transformsNew x l).isSome = true ↔ ∀ t ∈ l, TransformValid x t := by
  induction l with
  | nil => simp [transformsNew]
  | cons t l ih =>
    simp only [transformsNew, List.mem_cons, forall_eq_or_imp, ← ih]
    rw [← transform_valid]
    cases Transform.new x t <;> simp

theorem filter_valid (x : Ext) (c : FilterCfg) : (Filter.new x c).isSome = true ↔ FilterValid x c := by
  unfold Filter.new FilterValid
  cases c.matcher with
  | none => simp
  | some m =>
    simp only [Option.some.injEq, exists_eq_left', ← C29_rejected, ← transforms_valid]
    cases compile (Leaf.new x) m <;> simp

/-- What processing a log by a list of filter configurations should give. -/
inductive Processed (x : FExt) : Log → List FilterCfg → Log → Prop where
  | done {log} : Processed x log [] log
  /-- a broken filter does nothing -/
  | broken {log c l out} : ¬ FilterValid x.toExt c → Processed x log l out → Processed x log (c :: l) out
  /-- nor does one that does not accept the log as the earlier filters left it -/
  | unmatched {log c m l out} : FilterValid x.toExt c → c.matcher = some m → ¬ Sem (BaseHolds x.toExt log) m →
      Processed x log l out → Processed x log (c :: l) out
  /-- one that accepts it applies its transforms in order -/
  | matched {log c m ts l out} : FilterValid x.toExt c → c.matcher = some m → Sem (BaseHolds x.toExt log) m →
      transformsNew x.toExt c.transforms = some ts → Processed x (applyAll x log ts) l out →
      Processed x log (c :: l) out

theorem chainNew_cons_none {x : Ext} {c : FilterCfg} {l : List FilterCfg} (h : Filter.new x c = none) :
    chainNew x (c :: l) = ((chainNew x l).1, (chainNew x l).2 + 1) := by
  simp only [chainNew, h]

theorem chainNew_cons_some {x : Ext} {c : FilterCfg} {l : List FilterCfg} {f : Filter} (h : Filter.new x c = some f) :
    chainNew x (c :: l) = (f :: (chainNew x l).1, (chainNew x l).2) := by
  simp only [chainNew, h]

/-- C32: each usable filter is applied in configuration order, exactly if its matcher accepts the log as
the earlier filters left it; broken filters do nothing. -/
theorem C32_process (x : FExt) (cfgs : List FilterCfg) : ∀ (log out : Log),
    Processed x log cfgs out ↔ out = chainProcess x log (chainNew x.toExt cfgs).1 := by
  induction cfgs with
  | nil =>
    intro log out
    constructor
    · intro h; cases h; rfl
    · intro h; subst h; exact .done
  | cons c l ih =>
    intro log out
    cases hf : Filter.new x.toExt c with
    | none =>
      have hv : ¬ FilterValid x.toExt c := by rw [← filter_valid, hf]; simp
      rw [chainNew_cons_none hf]
      constructor
      · intro h
        cases h with
        | broken _ h => exact (ih _ _).mp h
        | unmatched h => exact absurd h hv
        | matched h => exact absurd h hv
      · intro h; exact .broken hv ((ih _ _).mpr h)
    | some f =>
      have hv : FilterValid x.toExt c := by rw [← filter_valid, hf]; rfl
      rw [chainNew_cons_some hf]
      have hshape : ∃ m, c.matcher = some m ∧ compile (Leaf.new x.toExt) m = some f.matcher ∧
          transformsNew x.toExt c.transforms = some f.transforms := by
        unfold Filter.new at hf
        cases hm : c.matcher with
        | none => simp [hm] at hf
        | some m =>
          simp only [hm] at hf
          cases hc : compile (Leaf.new x.toExt) m with
          | none => simp [hc] at hf
          | some t =>
            simp only [hc, Option.map_eq_some_iff] at hf
            obtain ⟨ts, h1, rfl⟩ := hf
            exact ⟨m, rfl, hc, h1⟩
      obtain ⟨m, hm, hc, ht⟩ := hshape
      have hmean := C29_meaning x.toExt m f.matcher hc log
      simp only [chainProcess]
      by_cases hs : Sem (BaseHolds x.toExt log) m
      · rw [if_pos (hmean.mpr hs)]
        constructor
        · intro h
          cases h with
          | broken h _ => exact absurd hv h
          | unmatched _ hm' hns => rw [hm] at hm'; cases hm'; exact absurd hs hns
          | matched _ _ _ ht' hp => rw [ht] at ht'; cases ht'; exact (ih _ _).mp hp
        · intro h; exact .matched hv hm hs ht ((ih _ _).mpr h)
      · rw [if_neg fun h => hs (hmean.mp h)]
        constructor
        · intro h
          cases h with
          | broken h _ => exact absurd hv h
          | unmatched _ _ _ hp => exact (ih _ _).mp hp
          | matched _ hm' hs' => rw [hm] at hm'; cases hm'; exact absurd hs' hs
        · intro h; exact .unmatched hv hm hs ((ih _ _).mpr h)

/-- C32: the broken filters are counted, and leaving them out changes nothing. -/
theorem C32_broken_counted (x : Ext) (cfgs : List FilterCfg) (dec : FilterCfg → Bool)
    (hdec : ∀ c, dec c = true ↔ FilterValid x c) :
    (chainNew x cfgs).2 = (cfgs.filter fun c => !dec c).length ∧
    (chainNew x (cfgs.filter dec)).1 = (chainNew x cfgs).1 := by
  induction cfgs with
  | nil => exact ⟨rfl, rfl⟩
  | cons c l ih =>
    cases hf : Filter.new x c with
    | none =>
      have hv : dec c = false := by
        rw [Bool.eq_false_iff]; intro h; rw [hdec, ← filter_valid, hf] at h; cases h
      rw [chainNew_cons_none hf]
      simp [hv, ih]
    | some f =>
      have hv : dec c = true := by rw [hdec, ← filter_valid, hf]; rfl
      rw [chainNew_cons_some hf]
      simp [hv, ih, chainNew_cons_some hf]

/-! ### What a transform does -/

/-- The field a transform is about. -/
def Transform.name : Transform → Str
  | .capture n => n
  | .set n _ _ _ => n
  | .remove n => n
  | .regex n _ _ => n

/-- The fields other than those called `name`. -/
def others (name : Str) (l : List Field) : List Field := l.filter fun f => f.key ≠ name

/-- The fields called `name`. -/
def called (name : Str) (l : List Field) : List Field := l.filter fun f => f.key = name

theorem others_append (n : Str) (a b : List Field) : others n (a ++ b) = others n a ++ others n b := by
  simp [others]

theorem others_setField (l : List Field) (f : Field) : others f.key (setField l f) = others f.key l := by
  simp [setField, others, List.filter_filter]

theorem called_setField (l : List Field) (f : Field) : called f.key (setField l f) = [f] := by
  have : (l.filter fun g => decide (g.key ≠ f.key)).filter (fun g => decide (g.key = f.key)) = [] := by
    rw [List.filter_filter, List.filter_eq_nil_iff]
    intro g _; simp
  simp only [called, setField, List.filter_append, this, List.nil_append]
  simp

theorem others_regexList (g : Str → Str) (name : Str) (l : List Field) :
    others name (regexList g name l).1 = others name l := by
  induction l with
  | nil => rfl
  | cons f l ih =>
    unfold regexList
    by_cases h : f.key = name
    · simp only [h, ne_eq, not_true_eq_false, if_false]
      cases f.value <;> simp [others, h]
    · simp only [ne_eq, h, not_false_eq_true, if_true]
      simp only [others, List.filter_cons, ne_eq, h, not_false_eq_true, decide_true, if_true]
      congr 1

theorem find_split {p : Field → Bool} {l : List Field} {i : Nat} (h : l.findIdx? p = some i) :
    ∃ f pre post, l = pre ++ f :: post ∧ l[i]? = some f ∧ l.eraseIdx i = pre ++ post ∧ p f = true ∧
      ∀ g ∈ pre, p g = false := by
  induction l generalizing i with
  | nil => simp at h
  | cons x l ih =>
    rw [List.findIdx?_cons] at h
    by_cases hx : p x = true
    · rw [if_pos hx] at h; cases h
      exact ⟨x, [], l, rfl, rfl, rfl, hx, by simp⟩
    · rw [if_neg hx] at h
      simp only [Option.map_eq_some_iff] at h
      obtain ⟨j, hj, rfl⟩ := h
      obtain ⟨f, pre, post, h1, h2, h3, h4, h5⟩ := ih hj
      refine ⟨f, x :: pre, post, by rw [h1]; rfl, by simpa using h2, by simp [h3], h4, ?_⟩
      intro g hg
      cases hg with
      | head => simpa using hx
      | tail _ hg => exact h5 g hg

/-- C32: a transform only touches the fields of its name: the other captured and matching fields stay as
they are and in order, and so do level, type and message. -/
theorem C32_frame (x : FExt) (log : Log) (t : Transform) :
    let out := t.apply x log
    others t.name out.fields = others t.name log.fields ∧ others t.name out.matching = others t.name log.matching ∧
    out.level = log.level ∧ out.type = log.type ∧ out.message = log.message := by
  cases t with
  | capture name =>
    simp only [Transform.apply, Transform.name]
    cases hi : log.matching.findIdx? (·.key = name) with
    | none => exact ⟨rfl, rfl, rfl, rfl, rfl⟩
    | some i =>
      obtain ⟨f, pre, post, h1, h2, h3, h4, h5⟩ := find_split hi
      simp only [h2, h3]
      have hk : f.key = name := by simpa using h4
      refine ⟨?_, ?_, by trivial, by trivial, by trivial⟩
      · subst hk; exact others_setField _ _
      · rw [h1]; simp [others, hk]
  | set name value captured allow =>
    simp only [Transform.apply, Transform.name]
    split
    · exact ⟨rfl, rfl, rfl, rfl, rfl⟩
    · split
      · exact ⟨rfl, rfl, rfl, rfl, rfl⟩
      · cases captured
        · exact ⟨rfl, others_setField _ ⟨name, _⟩, rfl, rfl, rfl⟩
        · exact ⟨others_setField _ ⟨name, _⟩, rfl, rfl, rfl, rfl⟩
  | remove name =>
    simp only [Transform.apply, Transform.name]
    refine ⟨?_, ?_, by trivial, by trivial, by trivial⟩ <;> simp [others, List.filter_filter]
  | regex name p s =>
    simp only [Transform.apply, Transform.name]
    split
    · exact ⟨others_regexList _ _ _, rfl, rfl, rfl, rfl⟩
    · exact ⟨rfl, others_regexList _ _ _, rfl, rfl, rfl⟩

/-- C32: setting a field leaves exactly one field of that name, with the given value, among the fields it
writes, and does not touch the other kind. -/
theorem C32_set (x : FExt) (log : Log) (name : Str) (value : SetValue) (captured allow : Bool) (s : Str)
    (hv : value.get log = some s) (ha : allow = true ∨ log.fieldValue name = none) :
    let out := (Transform.set name value captured allow).apply x log
    (captured = true → called name out.fields = [⟨name, .str s⟩] ∧ out.matching = log.matching) ∧
    (captured = false → called name out.matching = [⟨name, .str s⟩] ∧ out.fields = log.fields) := by
  have hcond : ¬ (!allow && (log.fieldValue name).isSome) = true := by
    rcases ha with h | h <;> simp [h]
  simp only [Transform.apply, if_neg hcond, hv]
  constructor
  · intro h; subst h
    exact ⟨called_setField log.fields ⟨name, .str s⟩, rfl⟩
  · intro h; subst h
    exact ⟨called_setField log.matching ⟨name, .str s⟩, rfl⟩

/-- C32: a set that may not override, or that copies from a field that has no text, does nothing. -/
theorem C32_set_noop (x : FExt) (log : Log) (name : Str) (value : SetValue) (captured allow : Bool)
    (h : value.get log = none ∨ (allow = false ∧ log.fieldValue name ≠ none)) :
    (Transform.set name value captured allow).apply x log = log := by
  simp only [Transform.apply]
  split
  · rfl
  · rename_i hc
    rcases h with h | ⟨h1, h2⟩
    · rw [h]
    · exfalso; apply hc
      cases hv : log.fieldValue name with
      | none => exact absurd hv h2
      | some v => simp [h1]

/-- C32: removing a field leaves none of that name. -/
theorem C32_remove (x : FExt) (log : Log) (name : Str) :
    let out := (Transform.remove name).apply x log
    called name out.fields = [] ∧ called name out.matching = [] := by
  simp only [Transform.apply, called, List.filter_filter]
  constructor <;> (rw [List.filter_eq_nil_iff]; intro g _; simp)

/-- C32: capturing moves the first matching field of that name, unchanged, to the captured fields, where it
becomes the only one of that name; without such a field nothing happens. -/
theorem C32_capture (x : FExt) (log : Log) (name : Str) :
    (called name log.matching = [] → (Transform.capture name).apply x log = log) ∧
    (∀ pre f post, log.matching = pre ++ f :: post → f.key = name → called name pre = [] →
      let out := (Transform.capture name).apply x log
      out.matching = pre ++ post ∧ called name out.fields = [f]) := by
  constructor
  · intro h
    simp only [Transform.apply]
    cases hi : log.matching.findIdx? (·.key = name) with
    | none => rfl
    | some i =>
      exfalso
      obtain ⟨f, pre, post, h1, _, _, h4, _⟩ := find_split hi
      rw [called, List.filter_eq_nil_iff] at h
      exact h f (by rw [h1]; simp) (by simpa using h4)
  · intro pre f post hm hk hp
    have hi : log.matching.findIdx? (·.key = name) = some pre.length := by
      rw [hm]
      clear hm
      induction pre with
      | nil => simp [List.findIdx?_cons, hk]
      | cons g pre ih =>
        rw [called, List.filter_eq_nil_iff] at hp
        have hg := hp g List.mem_cons_self
        have := ih (by rw [called, List.filter_eq_nil_iff]; intro a ha; exact hp a (List.mem_cons_of_mem _ ha))
        simp only [List.cons_append, List.findIdx?_cons]
        rw [if_neg hg, this]; rfl
    have hget : log.matching[pre.length]? = some f := by rw [hm]; simp
    have her : log.matching.eraseIdx pre.length = pre ++ post := by rw [hm]; simp [List.eraseIdx_append]
    simp only [Transform.apply, hi, hget, her]
    subst hk
    exact ⟨by trivial, called_setField _ _⟩

theorem regexList_first (g : Str → Str) (name : Str) (pre : List Field) (f : Field) (post : List Field)
    (hp : called name pre = []) (hk : f.key = name) :
    regexList g name (pre ++ f :: post) =
      (pre ++ (match f.value with | .str s => ⟨name, .str (g s)⟩ | .bytes _ => f) :: post, true) := by
  induction pre with
  | nil =>
    simp only [List.nil_append, regexList]
    rw [if_neg (by simp [hk])]
    cases hv : f.value with
    | str s => simp [hk]
    | bytes b => rfl
  | cons a pre ih =>
    rw [called, List.filter_eq_nil_iff] at hp
    have ha : a.key ≠ name := by simpa using hp a List.mem_cons_self
    have := ih (by rw [called, List.filter_eq_nil_iff]; intro b hb; exact hp b (List.mem_cons_of_mem _ hb))
    simp only [List.cons_append, regexList]
    rw [if_pos ha, this]

theorem regexList_none (g : Str → Str) (name : Str) (l : List Field) (h : called name l = []) :
    regexList g name l = (l, false) := by
  induction l with
  | nil => rfl
  | cons a l ih =>
    rw [called, List.filter_eq_nil_iff] at h
    have ha : a.key ≠ name := by simpa using h a List.mem_cons_self
    have := ih (by rw [called, List.filter_eq_nil_iff]; intro b hb; exact h b (List.mem_cons_of_mem _ hb))
    simp only [regexList]
    rw [if_pos ha, this]

/-- C32: a substitution rewrites the text of the first field of its name, captured before matching, and
nothing else. -/
theorem C32_regex (x : FExt) (log : Log) (name p s : Str) :
    (∀ pre f post, log.fields = pre ++ f :: post → f.key = name → called name pre = [] →
      (Transform.regex name p s).apply x log =
        { log with fields := pre ++ (match f.value with
          | .str v => ⟨name, .str (x.replaceAll p v s)⟩ | .bytes _ => f) :: post }) ∧
    (∀ pre f post, called name log.fields = [] → log.matching = pre ++ f :: post → f.key = name → called name pre = [] →
      (Transform.regex name p s).apply x log =
        { log with matching := pre ++ (match f.value with
          | .str v => ⟨name, .str (x.replaceAll p v s)⟩ | .bytes _ => f) :: post }) ∧
    (called name log.fields = [] → called name log.matching = [] → (Transform.regex name p s).apply x log = log) := by
  refine ⟨?_, ?_, ?_⟩
  · intro pre f post hf hk hp
    simp only [Transform.apply]
    rw [hf, regexList_first _ _ _ _ _ hp hk]
    rfl
  · intro pre f post hn hf hk hp
    simp only [Transform.apply]
    rw [regexList_none _ _ _ hn, hf, regexList_first _ _ _ _ _ hp hk]
    rfl
  · intro h1 h2
    simp only [Transform.apply]
    rw [regexList_none _ _ _ h1, regexList_none _ _ _ h2]
    rfl

/-! ### C51 -/

/-- C51 (part): a set that may not override changes nothing if a field of that name, captured or matching,
exists and the first one is text.  Missing: binary fields, see below. -/
theorem C51_no_override_partial (x : FExt) (log : Log) (name : Str) (value : SetValue) (captured : Bool) (f : Field) (v : Str)
    (hn : name ≠ "_message".toList)
    (hf : (log.fields ++ log.matching).find? (·.key = name) = some f) (ht : f.value = .str v) :
    (Transform.set name value captured false).apply x log = log := by
  refine C32_set_noop x log name value captured false (Or.inr ⟨rfl, ?_⟩)
  unfold Log.fieldValue
  rw [if_neg (show ¬ name = messageKey from hn)]
  split
  · simp
  · split
    · simp
    · rw [hf]; simp [ht, Val.asStr]

/-- C51, violation: an existing binary field is overwritten by a set that may not override. -/
theorem C51_no_override_violated (x : FExt) :
    let log : Log := ⟨0, 0, .str [], [⟨"a".toList, .bytes [1]⟩], []⟩
    (Transform.set "a".toList (.literal "new".toList) true false).apply x log =
      { log with fields := [⟨"a".toList, .str "new".toList⟩] } := by
  rfl

/-! ### An example -/

def exampleFExt : FExt := { exampleExt with replaceAll := fun _ s _ => s ++ s }

example :
    let cfgs : List FilterCfg :=
      [⟨none, [.remove "n".toList]⟩,
       ⟨some exampleCfg, [.capture "k".toList, .regex "k".toList "v".toList "x".toList]⟩,
       ⟨some (.base (.tagIsSet "absent".toList)), [.remove "k".toList]⟩,
       ⟨some (.base (.tagStr "k".toList (some .eq) "vv".toList)), [.set "lvl".toList (some (some (.existing "log_level".toList))) .matchingOnly false]⟩]
    (chainNew exampleExt cfgs).2 = 1 ∧
    chainProcess exampleFExt exampleLog (chainNew exampleExt cfgs).1 =
      { exampleLog with
        fields := [⟨"n".toList, .str "42".toList⟩, ⟨"k".toList, .str "vv".toList⟩],
        matching := [⟨"lvl".toList, .str "2".toList⟩] } := by
  decide

end Verif.Match
