import Verif.Match.Tree
import Verif.Match.VersionProps

/-
C29 (matcher trees) and C31 (buffer selection).
-/
namespace Verif.Match

/-! ### Meaning of a configuration -/

section
variable {B L : Type}

/-- Every node below satisfies: base matchers are valid, nothing is missing. -/
inductive ValidCfg (v : B → Prop) : Cfg B → Prop where
  | base {b} : v b → ValidCfg v (.base b)
  | or {l} : (∀ c ∈ l, ValidCfg v c) → ValidCfg v (.or l)
  | and {l} : (∀ c ∈ l, ValidCfg v c) → ValidCfg v (.and l)
  | not {c} : ValidCfg v c → ValidCfg v (.not c)

mutual
/-- When a configuration accepts, given which base matchers do. -/
def Sem (h : B → Prop) : Cfg B → Prop
  | .missing => False
  | .base b => h b
  | .or l => SemAny h l
  | .and l => SemAll h l
  | .not c => ¬ Sem h c
def SemAny (h : B → Prop) : List (Cfg B) → Prop
  | [] => False
  | c :: l => Sem h c ∨ SemAny h l
def SemAll (h : B → Prop) : List (Cfg B) → Prop
  | [] => True
  | c :: l => Sem h c ∧ SemAll h l
end

/-- `or` accepts when some part does, `and` when all do, `not` when its part does not. -/
theorem sem_or (h : B → Prop) (l : List (Cfg B)) : Sem h (.or l) ↔ ∃ c ∈ l, Sem h c := by
  simp only [Sem]
  induction l with
  | nil => simp [SemAny]
  | cons c l ih => simp [SemAny, ih]

theorem sem_and (h : B → Prop) (l : List (Cfg B)) : Sem h (.and l) ↔ ∀ c ∈ l, Sem h c := by
  simp only [Sem]
  induction l with
  | nil => simp [SemAll]
  | cons c l ih => simp [SemAll, ih]

theorem sem_not (h : B → Prop) (c : Cfg B) : Sem h (.not c) ↔ ¬ Sem h c := by simp only [Sem]

variable {leaf : B → Option L} {ev : L → Bool} {h : B → Prop} {v : B → Prop}

mutual
theorem compile_sem (hl : ∀ b l, leaf b = some l → (ev l = true ↔ h b)) :
    ∀ (c : Cfg B) (t : Tree L), compile leaf c = some t → (doMatch ev t = true ↔ Sem h c)
  | .missing, t, hc => by simp [compile] at hc
  | .base b, t, hc => by
    simp only [compile, Option.map_eq_some_iff] at hc
    obtain ⟨l, h1, rfl⟩ := hc
    simp only [doMatch, Sem]
    exact hl b l h1
  | .or l, t, hc => by
    simp only [compile, Option.map_eq_some_iff] at hc
    obtain ⟨ts, h1, rfl⟩ := hc
    simp only [doMatch, Sem]
    exact (compileList_sem hl l ts h1).1
  | .and l, t, hc => by
    simp only [compile, Option.map_eq_some_iff] at hc
    obtain ⟨ts, h1, rfl⟩ := hc
    simp only [doMatch, Sem]
    exact (compileList_sem hl l ts h1).2
  | .not c, t, hc => by
    simp only [compile, Option.map_eq_some_iff] at hc
    obtain ⟨t', h1, rfl⟩ := hc
    have := compile_sem hl c t' h1
    simp only [doMatch, Sem]
    rw [← this]
    simp
theorem compileList_sem (hl : ∀ b l, leaf b = some l → (ev l = true ↔ h b)) :
    ∀ (l : List (Cfg B)) (ts : List (Tree L)), compileList leaf l = some ts →
      (anyMatch ev ts = true ↔ SemAny h l) ∧ (allMatch ev ts = true ↔ SemAll h l)
  | [], ts, hc => by
    simp only [compileList, Option.some.injEq] at hc
    subst hc
    simp [anyMatch, allMatch, SemAny, SemAll]
  | c :: l, ts, hc => by
    simp only [compileList] at hc
    split at hc
    · cases hc
    · rename_i t h1
      simp only [Option.map_eq_some_iff] at hc
      obtain ⟨ts', h2, rfl⟩ := hc
      have a := compile_sem hl c t h1
      have b := compileList_sem hl l ts' h2
      simp only [anyMatch, allMatch, SemAny, SemAll, Bool.or_eq_true, Bool.and_eq_true, a, b.1, b.2, and_self]
end

mutual
theorem compile_valid (hv : ∀ b, (leaf b).isSome = true ↔ v b) :
    ∀ c : Cfg B, (compile leaf c).isSome = true ↔ ValidCfg v c
  | .missing => by
    simp only [compile, Option.isSome_none, Bool.false_eq_true, false_iff]
    intro h; cases h
  | .base b => by
    simp only [compile, Option.isSome_map, hv]
    exact ⟨.base, fun h => by cases h; assumption⟩
  | .or l => by
    simp only [compile, Option.isSome_map, compileList_valid hv l]
    exact ⟨.or, fun h => by cases h; assumption⟩
  | .and l => by
    simp only [compile, Option.isSome_map, compileList_valid hv l]
    exact ⟨.and, fun h => by cases h; assumption⟩
  | .not c => by
    simp only [compile, Option.isSome_map, compile_valid hv c]
    exact ⟨.not, fun h => by cases h; assumption⟩
theorem compileList_valid (hv : ∀ b, (leaf b).isSome = true ↔ v b) :
    ∀ l : List (Cfg B), (compileList leaf l).isSome = true ↔ ∀ c ∈ l, ValidCfg v c
  | [] => by simp [compileList]
  | c :: l => by
    have a := compile_valid hv c
    have b := compileList_valid hv l
    simp only [compileList, List.mem_cons, forall_eq_or_imp, ← a, ← b]
    cases compile leaf c <;> simp
end

end

/-! ### Meaning of the leaves -/

/-- An integer comparison as configured. -/
def IntHolds (op : WireOp) (value candidate : Int) : Prop :=
  match op with
  | some .lt => candidate < value
  | some .le => candidate ≤ value
  | some .eq => candidate = value
  | some .gt => value < candidate
  | some .ge => value ≤ candidate
  | some .ne => candidate ≠ value
  | _ => False

/-- A string comparison as configured. -/
def StrHolds (x : Ext) (op : WireOp) (value candidate : Str) : Prop :=
  match op with
  | some .lt => cmpStr candidate value = .lt
  | some .le => cmpStr candidate value = .lt ∨ candidate = value
  | some .eq => candidate = value
  | some .gt => cmpStr candidate value = .gt
  | some .ge => cmpStr candidate value = .gt ∨ candidate = value
  | some .ne => candidate ≠ value
  | some .regex => x.isMatch value candidate = true
  | _ => False

/-- A version comparison as configured. -/
def VersionHolds (x : Ext) (op : WireOp) (value candidate : Str) : Prop :=
  match op with
  | some .lt => (Version.ofStr candidate).cmp (Version.ofStr value) = .lt
  | some .le => (Version.ofStr candidate).cmp (Version.ofStr value) ≠ .gt
  | some .eq => (Version.ofStr candidate).cmp (Version.ofStr value) = .eq
  | some .gt => (Version.ofStr candidate).cmp (Version.ofStr value) = .gt
  | some .ge => (Version.ofStr candidate).cmp (Version.ofStr value) ≠ .lt
  | some .ne => (Version.ofStr candidate).cmp (Version.ofStr value) ≠ .eq
  | some .regex => x.isMatch value candidate = true
  | _ => False

/-- The value a key stands for: its first captured field if that is text, otherwise its first matching
field if that is text. -/
def FieldIs (log : Log) (key s : Str) : Prop :=
  (∃ f, log.fields.find? (·.key = key) = some f ∧ f.value = .str s) ∨
  ((∀ f, log.fields.find? (·.key = key) = some f → ∀ s', f.value ≠ .str s') ∧
    ∃ f, log.matching.find? (·.key = key) = some f ∧ f.value = .str s)

/-- When a base matcher accepts a log. -/
def BaseHolds (x : Ext) (log : Log) : BaseCfg → Prop
  | .missing => False
  | .message op v => ∃ s, log.message = .str s ∧ StrHolds x op v s
  | .tagMissing _ => False
  | .tagInt key op v =>
    if key = "log_level".toList then log.level < 2 ^ 31 ∧ IntHolds op v log.level
    else if key = "log_type".toList then v = log.type
    else ∃ s n, FieldIs log key s ∧ x.toI32 s = some n ∧ IntHolds op v n
  | .tagStr key op v => ∃ s, FieldIs log key s ∧ StrHolds x op v s
  | .tagVersion key op v => ∃ s, FieldIs log key s ∧ VersionHolds x op v s
  | .tagIsSet key => ∃ s, FieldIs log key s

/-- Which base matchers are valid. -/
def BaseValid (x : Ext) : BaseCfg → Prop
  | .missing => False
  | .message op v => op ≠ none ∧ op ≠ some .unspecified ∧ (op = some .regex → x.regexValid v = true)
  | .tagMissing _ => False
  | .tagInt key op v =>
    if key = "log_type".toList then 0 ≤ v else op ≠ none ∧ op ≠ some .regex
  | .tagStr _ op v => op ≠ none ∧ op ≠ some .unspecified ∧ (op = some .regex → x.regexValid v = true)
  | .tagVersion _ op v => op ≠ none ∧ op ≠ some .unspecified ∧ (op = some .regex → x.regexValid v = true)
  | .tagIsSet _ => True

theorem val_asStr {v : Val} {s : Str} : v.asStr = some s ↔ v = .str s := by
  cases v <;> simp [Val.asStr]

theorem findSome_first (l : List Field) (key : Str) :
    l.findSome? (fun f => if f.key = key then some f.value.asStr else none) =
      (l.find? (·.key = key)).map (·.value.asStr) := by
  induction l with
  | nil => rfl
  | cons f l ih =>
    by_cases h : f.key = key
    · simp [h]
    · simp [h, ih]

theorem fieldsRef_is (log : Log) (key s : Str) :
    fieldsRefValue log.fields log.matching key = some s ↔ FieldIs log key s := by
  unfold fieldsRefValue FieldIs matchingFieldValue
  rw [findSome_first]
  cases hc : log.fields.find? (·.key = key) with
  | none =>
    simp [Option.bind_eq_some_iff, val_asStr]
  | some f =>
    cases hv : f.value with
    | str s' => simp [Val.asStr, hv]
    | bytes b =>
      have hb : (Val.bytes b).asStr = none := rfl
      simp [hb, hv, Option.bind_eq_some_iff, val_asStr]

theorem strMatch_holds {x : Ext} {op : WireOp} {v : Str} {o : Op} (h : strMatchNew x op v = some o) (s : Str) :
    strEval x o v s = true ↔ StrHolds x op v s := by
  have hle : cmpStr s v ≠ .gt ↔ cmpStr s v = .lt ∨ s = v := by
    constructor
    · intro hh
      cases e : cmpStr s v with
      | lt => exact Or.inl rfl
      | eq => exact Or.inr (cmpStr_eq e)
      | gt => exact absurd e hh
    · rintro (h | h)
      · rw [h]; decide
      · rw [h, cmpStr_refl]; decide
  have hge : cmpStr s v ≠ .lt ↔ cmpStr s v = .gt ∨ s = v := by
    constructor
    · intro hh
      cases e : cmpStr s v with
      | gt => exact Or.inl rfl
      | eq => exact Or.inr (cmpStr_eq e)
      | lt => exact absurd e hh
    · rintro (h | h)
      · rw [h]; decide
      · rw [h, cmpStr_refl]; decide
  cases op with
  | none => cases h
  | some p =>
    cases p <;> simp only [strMatchNew] at h
    case regex =>
      split at h <;> simp only [Option.some.injEq, reduceCtorEq] at h
      subst h
      simp [strEval, StrHolds]
    all_goals first
      | cases h; done
      | (simp only [Option.some.injEq] at h
         subst h
         simp only [strEval, StrHolds, ← hle, ← hge, bne_iff_ne, beq_iff_eq, ne_eq])

theorem strMatch_valid (x : Ext) (op : WireOp) (v : Str) :
    (strMatchNew x op v).isSome = true ↔ op ≠ none ∧ op ≠ some .unspecified ∧ (op = some .regex → x.regexValid v = true) := by
  cases op with
  | none => simp [strMatchNew]
  | some p =>
    cases p <;> simp [strMatchNew]

theorem intMatch_holds {op : WireOp} {o : Op} (h : intMatchNew op = some o) (v c : Int) :
    intEval o v c = true ↔ IntHolds op v c := by
  cases op with
  | none => cases h
  | some p =>
    cases p <;> simp only [intMatchNew, Option.some.injEq, reduceCtorEq] at h <;> subst h <;>
      simp [intEval, IntHolds]

theorem intMatch_valid (op : WireOp) : (intMatchNew op).isSome = true ↔ op ≠ none ∧ op ≠ some .regex := by
  cases op with
  | none => simp [intMatchNew]
  | some p => cases p <;> simp [intMatchNew]

theorem versionMatch_holds {x : Ext} {op : WireOp} {v : Str} {m : VersionMatch}
    (h : versionMatchNew x op v = some m) (s : Str) : m.eval x s = true ↔ VersionHolds x op v s := by
  cases op with
  | none => cases h
  | some p =>
    cases p <;> simp only [versionMatchNew] at h
    case regex =>
      split at h <;> simp only [Option.some.injEq, reduceCtorEq] at h
      subst h
      simp [VersionMatch.eval, VersionHolds]
    all_goals first
      | cases h; done
      | (simp only [Option.some.injEq] at h
         subst h
         simp only [VersionMatch.eval, VersionHolds, Comparator.compare]
         cases (Version.ofStr s).cmp (Version.ofStr v) <;> decide)

theorem versionMatch_valid (x : Ext) (op : WireOp) (v : Str) :
    (versionMatchNew x op v).isSome = true ↔ op ≠ none ∧ op ≠ some .unspecified ∧ (op = some .regex → x.regexValid v = true) := by
  cases op with
  | none => simp [versionMatchNew]
  | some p => cases p <;> simp [versionMatchNew]

theorem mapOr_iff {α : Type} {o : Option α} {f : α → Bool} : mapOr o f = true ↔ ∃ a, o = some a ∧ f a = true := by
  cases o <;> simp [mapOr]

theorem leaf_holds (x : Ext) (log : Log) (b : BaseCfg) (l : Leaf) (h : Leaf.new x b = some l) :
    Leaf.eval x log.level log.type log.message (fieldsRefValue log.fields log.matching) l = true ↔
      BaseHolds x log b := by
  cases b with
  | missing => cases h
  | message op v =>
    simp only [Leaf.new, Option.map_eq_some_iff] at h
    obtain ⟨o, h1, rfl⟩ := h
    simp only [Leaf.eval, BaseHolds, mapOr_iff, Input.get, val_asStr, strMatch_holds h1]
  | tagMissing k => cases h
  | tagInt key op v =>
    simp only [Leaf.new] at h
    simp only [BaseHolds]
    by_cases h1 : key = "log_level".toList
    · rw [if_pos h1]
      rw [if_pos (show key = logLevelKey from h1)] at h
      simp only [Option.map_eq_some_iff] at h
      obtain ⟨o, h2, rfl⟩ := h
      simp only [Leaf.eval]
      by_cases hl : log.level < 2 ^ 31
      · rw [if_pos hl, intMatch_holds h2]; simp [hl]
      · rw [if_neg hl]; simp [hl]
    · rw [if_neg h1]
      rw [if_neg (show ¬ key = logLevelKey from h1)] at h
      by_cases h2 : key = "log_type".toList
      · rw [if_pos h2]
        rw [if_pos (show key = logTypeKey from h2)] at h
        by_cases hv : 0 ≤ v
        · rw [if_pos hv] at h
          simp only [Option.some.injEq] at h
          subst h
          simp only [Leaf.eval, beq_iff_eq]
          omega
        · rw [if_neg hv] at h; cases h
      · rw [if_neg h2]
        rw [if_neg (show ¬ key = logTypeKey from h2)] at h
        simp only [Option.map_eq_some_iff] at h
        obtain ⟨o, h3, rfl⟩ := h
        simp only [Leaf.eval, Input.get, mapOr_iff, fieldsRef_is, intMatch_holds h3, exists_and_left]
  | tagStr key op v =>
    simp only [Leaf.new, Option.map_eq_some_iff] at h
    obtain ⟨o, h1, rfl⟩ := h
    simp only [Leaf.eval, BaseHolds, mapOr_iff, Input.get, fieldsRef_is, strMatch_holds h1]
  | tagVersion key op v =>
    simp only [Leaf.new, Option.map_eq_some_iff] at h
    obtain ⟨o, h1, rfl⟩ := h
    simp only [Leaf.eval, BaseHolds, mapOr_iff, Input.get, fieldsRef_is, versionMatch_holds h1]
  | tagIsSet key =>
    simp only [Leaf.new, Option.some.injEq] at h
    subst h
    simp only [Leaf.eval, BaseHolds, Input.get, Option.isSome_iff_exists, fieldsRef_is]

theorem leaf_valid (x : Ext) (b : BaseCfg) : (Leaf.new x b).isSome = true ↔ BaseValid x b := by
  cases b with
  | missing => simp [Leaf.new, BaseValid]
  | message op v => simp only [Leaf.new, Option.isSome_map, BaseValid]; exact strMatch_valid x op v
  | tagMissing k => simp [Leaf.new, BaseValid]
  | tagInt key op v =>
    simp only [Leaf.new, BaseValid]
    by_cases h1 : key = logLevelKey
    · rw [if_pos h1, if_neg (by rw [h1]; decide), Option.isSome_map]; exact intMatch_valid op
    · rw [if_neg h1]
      by_cases h2 : key = logTypeKey
      · rw [if_pos h2, if_pos (show key = "log_type".toList from h2)]
        by_cases hv : 0 ≤ v
        · rw [if_pos hv]; simp [hv]
        · rw [if_neg hv]; simp [hv]
      · rw [if_neg h2, if_neg (show ¬ key = "log_type".toList from h2), Option.isSome_map]
        exact intMatch_valid op
  | tagStr key op v => simp only [Leaf.new, Option.isSome_map, BaseValid]; exact strMatch_valid x op v
  | tagVersion key op v => simp only [Leaf.new, Option.isSome_map, BaseValid]; exact versionMatch_valid x op v
  | tagIsSet k => simp [Leaf.new, BaseValid]

/-! ### C29 -/

/-- C29: a compiled matcher tree accepts a log exactly when the configuration it was made from does. -/
theorem C29_meaning (x : Ext) (c : Cfg BaseCfg) (t : Tree Leaf) (hc : compile (Leaf.new x) c = some t) (log : Log) :
    log.matches x t = true ↔ Sem (BaseHolds x log) c :=
  compile_sem (leaf_holds x log) c t hc

/-- C29: a configuration compiles exactly when no node is incomplete and every base matcher is valid. -/
theorem C29_rejected (x : Ext) (c : Cfg BaseCfg) :
    (compile (Leaf.new x) c).isSome = true ↔ ValidCfg (BaseValid x) c :=
  compile_valid (leaf_valid x) c

/-- C29: a leaf about the message or a field never accepts a log without that input. -/
theorem C29_missing_input (x : Ext) (log : Log) (key : Str) (hf : ∀ s, ¬ FieldIs log key s)
    (hkey : key ≠ "log_level".toList ∧ key ≠ "log_type".toList) :
    (∀ op v, ¬ BaseHolds x log (.tagInt key op v)) ∧ (∀ op v, ¬ BaseHolds x log (.tagStr key op v)) ∧
    (∀ op v, ¬ BaseHolds x log (.tagVersion key op v)) ∧ ¬ BaseHolds x log (.tagIsSet key) ∧
    ((∀ s, log.message ≠ .str s) → ∀ op v, ¬ BaseHolds x log (.message op v)) := by
  refine ⟨fun op v h => ?_, fun op v h => ?_, fun op v h => ?_, fun h => ?_, fun hm op v h => ?_⟩
  · simp only [BaseHolds, if_neg hkey.1, if_neg hkey.2] at h
    obtain ⟨s, _, hs, _⟩ := h; exact hf s hs
  · obtain ⟨s, hs, _⟩ := h; exact hf s hs
  · obtain ⟨s, hs, _⟩ := h; exact hf s hs
  · obtain ⟨s, hs⟩ := h; exact hf s hs
  · obtain ⟨s, hs, _⟩ := h; exact hm s hs

/-- C29, two deviations from what an operator says: a log type leaf compares for equality whatever its
operator (here "not equals", and an unknown one), and an integer leaf with the unspecified operator is
accepted as a configuration although it can never match. -/
theorem C29_operator_violated (x : Ext) (log : Log) :
    (∃ t, compile (Leaf.new x) (.base (.tagInt "log_type".toList (some .ne) 3)) = some t ∧
      (log.type = 3 → log.matches x t = true) ∧ (log.type = 4 → log.matches x t = false)) ∧
    (∃ t, compile (Leaf.new x) (.base (.tagInt "log_type".toList none 3)) = some t) ∧
    (∃ t, compile (Leaf.new x) (.base (.tagInt "k".toList (some .unspecified) 3)) = some t ∧
      log.matches x t = false) := by
  refine ⟨⟨.base (.type 3), rfl, ?_, ?_⟩, ⟨.base (.type 3), rfl⟩, ⟨.base (.int (.field "k".toList) .unspecified 3), rfl, ?_⟩⟩
  · intro h; simp [Log.matches, doMatch, Leaf.eval, h]
  · intro h; simp [Log.matches, doMatch, Leaf.eval, h]
  · simp only [Log.matches, doMatch, Leaf.eval, intEval, mapOr]
    split
    · rfl
    · split <;> rfl

/-- A log and a matcher used in the examples. -/
def exampleExt : Ext := ⟨fun _ => true, fun _ _ => false, fun s => if s = "42".toList then some 42 else none⟩

def exampleLog : Log :=
  ⟨2, 0, .str "hello".toList, [⟨"k".toList, .bytes [1]⟩, ⟨"n".toList, .str "42".toList⟩], [⟨"k".toList, .str "v".toList⟩]⟩

def exampleCfg : Cfg BaseCfg :=
  .and [.base (.tagStr "k".toList (some .eq) "v".toList),
    .or [.base (.tagInt "n".toList (some .gt) 50), .not (.base (.message (some .ge) "zzz".toList))]]

example : ∃ t, compile (Leaf.new exampleExt) exampleCfg = some t ∧ exampleLog.matches exampleExt t = true :=
  ⟨_, rfl, by decide⟩

/-! ### The buffer matcher -/

/-- When a base matcher of a buffer filter accepts. -/
def BufHolds (x : Ext) (log : Log) : BufBase → Prop
  | .missing => False
  | .level op v => match op with
    | some .lt => (log.level : Int) < v
    | some .le => (log.level : Int) ≤ v
    | some .eq => (log.level : Int) = v
    | some .gt => v < (log.level : Int)
    | some .ge => v ≤ (log.level : Int)
    | none => False
  | .message t v => ∃ s, log.message = .str s ∧ BufStrHolds x t v s
  | .tag key t v => ∃ s, FieldIs log key s ∧ BufStrHolds x t v s
  | .any => True
  | .type n => log.type = n
where BufStrHolds (x : Ext) (t : Option StrType) (value candidate : Str) : Prop :=
  match t with
  | some .exact => candidate = value
  | some .prefix => ∃ rest, candidate = value ++ rest
  | some .regex => x.isMatch value candidate = true
  | none => False

def BufValid (x : Ext) : BufBase → Prop
  | .missing => False
  | .level op v => op ≠ none ∧ 0 ≤ v
  | .message t v => t ≠ none ∧ (t = some .regex → x.regexValid v = true)
  | .tag _ t v => t ≠ none ∧ (t = some .regex → x.regexValid v = true)
  | .any => True
  | .type _ => True

theorem bufStr_holds {x : Ext} {t : Option StrType} {v : Str} {o : StrType} (h : bufStrNew x t v = some o) (s : Str) :
    bufStrEval x o v s = true ↔ BufHolds.BufStrHolds x t v s := by
  cases t with
  | none => cases h
  | some p =>
    cases p <;> simp only [bufStrNew] at h
    · simp only [Option.some.injEq] at h; subst h; simp [bufStrEval, BufHolds.BufStrHolds]
    · simp only [Option.some.injEq] at h; subst h
      simp only [bufStrEval, BufHolds.BufStrHolds, List.isPrefixOf_iff_prefix]
      constructor
      · rintro ⟨r, hr⟩; exact ⟨r, hr.symm⟩
      · rintro ⟨r, hr⟩; exact ⟨r, hr.symm⟩
    · split at h <;> simp only [Option.some.injEq, reduceCtorEq] at h
      subst h; simp [bufStrEval, BufHolds.BufStrHolds]

theorem bufStr_valid (x : Ext) (t : Option StrType) (v : Str) :
    (bufStrNew x t v).isSome = true ↔ t ≠ none ∧ (t = some .regex → x.regexValid v = true) := by
  cases t with
  | none => simp [bufStrNew]
  | some p => cases p <;> simp [bufStrNew]

theorem bufLeaf_holds (x : Ext) (log : Log) (b : BufBase) (l : BufLeaf) (h : BufLeaf.new x b = some l) :
    BufLeaf.eval x log.level log.type log.message (fieldsRefValue log.fields log.matching) l = true ↔
      BufHolds x log b := by
  cases b with
  | missing => cases h
  | level op v =>
    simp only [BufLeaf.new] at h
    cases op with
    | none => cases h
    | some o =>
      by_cases hv : 0 ≤ v
      · simp only [hv, if_true, Option.some.injEq] at h
        subst h
        simp only [BufLeaf.eval, BufHolds]
        cases o <;> simp only [bufIntEval, decide_eq_true_eq] <;> omega
      · simp only [hv, if_false, reduceCtorEq] at h
  | message t v =>
    simp only [BufLeaf.new, Option.map_eq_some_iff] at h
    obtain ⟨o, h1, rfl⟩ := h
    simp only [BufLeaf.eval, BufHolds, mapOr_iff, Input.get, val_asStr, bufStr_holds h1]
  | tag key t v =>
    simp only [BufLeaf.new, Option.map_eq_some_iff] at h
    obtain ⟨o, h1, rfl⟩ := h
    simp only [BufLeaf.eval, BufHolds, mapOr_iff, Input.get, fieldsRef_is, bufStr_holds h1]
  | any =>
    simp only [BufLeaf.new, Option.some.injEq] at h
    subst h; simp [BufLeaf.eval, BufHolds]
  | type n =>
    simp only [BufLeaf.new, Option.some.injEq] at h
    subst h; simp only [BufLeaf.eval, BufHolds, beq_iff_eq]; omega

theorem bufLeaf_valid (x : Ext) (b : BufBase) : (BufLeaf.new x b).isSome = true ↔ BufValid x b := by
  cases b with
  | missing => simp [BufLeaf.new, BufValid]
  | level op v =>
    cases op with
    | none => simp [BufLeaf.new, BufValid]
    | some o => by_cases hv : 0 ≤ v <;> simp [BufLeaf.new, BufValid, hv]
  | message t v => simp only [BufLeaf.new, Option.isSome_map, BufValid]; exact bufStr_valid x t v
  | tag k t v => simp only [BufLeaf.new, Option.isSome_map, BufValid]; exact bufStr_valid x t v
  | any => simp [BufLeaf.new, BufValid]
  | type n => simp [BufLeaf.new, BufValid]

/-- C29 for the matcher of buffer filters. -/
theorem C29_buffer_meaning (x : Ext) (c : Cfg BufBase) (t : Tree BufLeaf)
    (hc : compile (BufLeaf.new x) c = some t) (log : Log) :
    doMatch (BufLeaf.eval x log.level log.type log.message (fieldsRefValue log.fields log.matching)) t = true ↔
      Sem (BufHolds x log) c :=
  compile_sem (bufLeaf_holds x log) c t hc

theorem C29_buffer_rejected (x : Ext) (c : Cfg BufBase) :
    (compile (BufLeaf.new x) c).isSome = true ↔ ValidCfg (BufValid x) c :=
  compile_valid (bufLeaf_valid x) c

/-! ### C31 -/

theorem mem_insertSet {s : List Str} {a b : Str} : b ∈ insertSet s a ↔ b ∈ s ∨ b = a := by
  unfold insertSet
  split
  · constructor
    · exact Or.inl
    · rintro (h | h)
      · exact h
      · subst h; assumption
  · simp

theorem nodup_insertSet {s : List Str} {a : Str} (h : s.Nodup) : (insertSet s a).Nodup := by
  unfold insertSet
  split
  · exact h
  · rename_i hn
    rw [List.nodup_append]
    refine ⟨h, by simp, ?_⟩
    intro x hx y hy
    simp only [List.mem_singleton] at hy
    subst hy
    intro e; subst e; exact hn hx

theorem mem_selLoop (ev : BufLeaf → Bool) (l : List BufFilter) : ∀ (acc : List Str) (id : Str),
    id ∈ selLoop ev l acc ↔ id ∈ acc ∨ ∃ f ∈ l, f.id = id ∧ ∃ m ∈ f.matchers, doMatch ev m.2 = true := by
  induction l with
  | nil => intro acc id; simp [selLoop]
  | cons f l ih =>
    intro acc id
    simp only [selLoop, ih, List.mem_cons, exists_eq_or_imp]
    by_cases h : f.matchers.any (fun m => doMatch ev m.2) = true
    · rw [if_pos h, mem_insertSet]
      have : ∃ m ∈ f.matchers, doMatch ev m.2 = true := by simpa using h
      constructor
      · rintro ((h | h) | h)
        · exact Or.inl h
        · exact Or.inr (Or.inl ⟨h.symm, this⟩)
        · exact Or.inr (Or.inr h)
      · rintro (h | h | h)
        · exact Or.inl (Or.inl h)
        · exact Or.inl (Or.inr h.1.symm)
        · exact Or.inr h
    · rw [if_neg h]
      have : ¬ ∃ m ∈ f.matchers, doMatch ev m.2 = true := by simpa using h
      constructor
      · rintro (h | h)
        · exact Or.inl h
        · exact Or.inr (Or.inr h)
      · rintro (h | h | h)
        · exact Or.inl h
        · exact absurd h.2 this
        · exact Or.inr h

theorem nodup_selLoop (ev : BufLeaf → Bool) (l : List BufFilter) : ∀ acc : List Str, acc.Nodup → (selLoop ev l acc).Nodup := by
  induction l with
  | nil => intro acc h; exact h
  | cons f l ih =>
    intro acc h
    simp only [selLoop]
    split
    · exact ih _ (nodup_insertSet h)
    · exact ih _ h

theorem selFilters_match {x : Ext} {h : BufBase → Prop} {ev : BufLeaf → Bool}
    (hl : ∀ b l, BufLeaf.new x b = some l → (ev l = true ↔ h b)) :
    ∀ (fs : List (Str × Option (Cfg BufBase))) (ms : List (Str × Tree BufLeaf)), selFilters x fs = some ms →
      ((∃ m ∈ ms, doMatch ev m.2 = true) ↔ ∃ f ∈ fs, ∃ c, f.2 = some c ∧ Sem h c) := by
  intro fs
  induction fs with
  | nil => intro ms hm; simp only [selFilters, Option.some.injEq] at hm; subst hm; simp
  | cons f fs ih =>
    intro ms hm
    obtain ⟨fid, fc⟩ := f
    cases fc with
    | none =>
      simp only [selFilters] at hm
      simp only [List.mem_cons, exists_eq_or_imp, reduceCtorEq, false_and, exists_false, false_or]
      exact ih ms hm
    | some c =>
      simp only [selFilters] at hm
      split at hm
      · cases hm
      · rename_i t ht
        simp only [Option.map_eq_some_iff] at hm
        obtain ⟨ms', h1, rfl⟩ := hm
        simp only [List.mem_cons, exists_eq_or_imp, Option.some.injEq, exists_eq_left', ih ms' h1,
          compile_sem hl c t ht]

theorem selNew_mem {x : Ext} {h : BufBase → Prop} {ev : BufLeaf → Bool}
    (hl : ∀ b l, BufLeaf.new x b = some l → (ev l = true ↔ h b)) (id : Str) :
    ∀ (cs : List BufCfg) (sel : List BufFilter), selNew x cs = some sel →
      ((∃ f ∈ sel, f.id = id ∧ ∃ m ∈ f.matchers, doMatch ev m.2 = true) ↔
        ∃ c ∈ cs, c.id = id ∧ ∃ f ∈ c.filters, ∃ m, f.2 = some m ∧ Sem h m) := by
  intro cs
  induction cs with
  | nil => intro sel hs; simp only [selNew, Option.some.injEq] at hs; subst hs; simp
  | cons c cs ih =>
    intro sel hs
    simp only [selNew] at hs
    split at hs
    · cases hs
    · rename_i ms hm
      simp only [Option.map_eq_some_iff] at hs
      obtain ⟨sel', h1, rfl⟩ := hs
      simp only [List.mem_cons, exists_eq_or_imp, ih sel' h1, selFilters_match hl _ ms hm]

/-- C31: the buffers selected for a log are exactly the configured ones with a filter whose matcher
accepts the log, each once. -/
theorem C31_selection (x : Ext) (cfg : List BufCfg) (sel : List BufFilter) (hs : selNew x cfg = some sel) (log : Log) :
    let out := selBuffers x sel log.level log.type log.message (fieldsRefValue log.fields log.matching)
    out.Nodup ∧
    ∀ id, id ∈ out ↔ ∃ c ∈ cfg, c.id = id ∧ ∃ f ∈ c.filters, ∃ m, f.2 = some m ∧ Sem (BufHolds x log) m := by
  refine ⟨nodup_selLoop _ _ _ List.nodup_nil, fun id => ?_⟩
  simp only [selBuffers, mem_selLoop, List.not_mem_nil, false_or]
  exact selNew_mem (bufLeaf_holds x log) id cfg sel hs

/-- C31: neither the order of the buffers and filters nor repeating them matters: two configurations with
the same buffer and matcher pairs select the same buffers. -/
theorem C31_order_irrelevant (x : Ext) (c1 c2 : List BufCfg) (s1 s2 : List BufFilter)
    (h1 : selNew x c1 = some s1) (h2 : selNew x c2 = some s2)
    (hsame : ∀ id m, (∃ c ∈ c1, c.id = id ∧ ∃ f ∈ c.filters, f.2 = some m) ↔
      (∃ c ∈ c2, c.id = id ∧ ∃ f ∈ c.filters, f.2 = some m)) (log : Log) (id : Str) :
    id ∈ selBuffers x s1 log.level log.type log.message (fieldsRefValue log.fields log.matching) ↔
    id ∈ selBuffers x s2 log.level log.type log.message (fieldsRefValue log.fields log.matching) := by
  rw [(C31_selection x c1 s1 h1 log).2, (C31_selection x c2 s2 h2 log).2]
  constructor
  · rintro ⟨c, hc, hid, f, hf, m, hm, hs⟩
    obtain ⟨c', hc', hid', f', hf', hm'⟩ := (hsame id m).mp ⟨c, hc, hid, f, hf, hm⟩
    exact ⟨c', hc', hid', f', hf', m, hm', hs⟩
  · rintro ⟨c, hc, hid, f, hf, m, hm, hs⟩
    obtain ⟨c', hc', hid', f', hf', hm'⟩ := (hsame id m).mpr ⟨c, hc, hid, f, hf, hm⟩
    exact ⟨c', hc', hid', f', hf', m, hm', hs⟩

example :
    let cfg : List BufCfg := [⟨"a".toList, [("1".toList, none), ("2".toList, some (.base (.tag "k".toList (some .prefix) "v".toList)))]⟩,
      ⟨"b".toList, [("1".toList, some (.base (.level (some .gt) 3)))]⟩,
      ⟨"c".toList, [("1".toList, some (.base .any)), ("2".toList, some (.base .any))]⟩]
    ∃ sel, selNew exampleExt cfg = some sel ∧
      selBuffers exampleExt sel exampleLog.level exampleLog.type exampleLog.message
        (fieldsRefValue exampleLog.fields exampleLog.matching) = ["a".toList, "c".toList] :=
  ⟨_, rfl, by decide⟩

end Verif.Match
