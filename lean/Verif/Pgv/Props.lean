import Verif.Pgv.Model

/-!
C49: a message is accepted exactly if it and the messages in it meet their rules.
-/
namespace Verif.Pgv

/-- The zero values of the scalar types. -/
inductive Zero : Ty → Value → Prop where
  | i32 : Zero .i32 (.i32 0)
  | i64 : Zero .i64 (.i64 0)
  | u32 : Zero .u32 (.u32 0)
  | u64 : Zero .u64 (.u64 0)
  | f32 : Zero .f32 .f32
  | f64 : Zero .f64 .f64
  | bool : Zero .bool (.bool false)
  | string : Zero .string (.string "")
  | bytes : Zero .bytes .bytes
  | enum : Zero .enum (.enum true)

/-- The value that rules apply to: the one that is set, or the zero value of a field without presence. -/
inductive Effective : Field → Ty → Value → Prop where
  | set {r o t v} : Effective (.mk r o (.one t (some v))) t v
  | zero {r t v} : Zero t v → Effective (.mk r false (.one t none)) t v

/-- The type rules of a field. -/
def Field.type? (f : Field) : Option TypeRule := f.rules.bind Rules.type

/-- An integer meets its rules, all of which are supported. -/
def IntMeets (r : IntRules) (n : Int) : Prop := (∀ g, r.gt = some g → g < n) ∧ r.other = false

/-- A field meets its rules, and no rule on it is one that is not supported. -/
structure FieldOk (f : Field) : Prop where
  groups : f.type? ≠ some .any ∧ f.type? ≠ some .timestamp ∧ f.type? ≠ some .fixed32 ∧ f.type? ≠ some .fixed64 ∧
    f.type? ≠ some .sfixed32 ∧ f.type? ≠ some .sfixed64
  float : f.type? = some .float → ∀ v, f.content ≠ .one .f32 v
  double : f.type? = some .double → ∀ v, f.content ≠ .one .f64 v
  bytes : f.type? = some .bytes → ∀ v, f.content ≠ .one .bytes v
  map : f.type? = some .map → ∀ l, f.content ≠ .map l
  int32 : ∀ r n, f.type? = some (.int32 r) → Effective f .i32 (.i32 n) → IntMeets r n
  int64 : ∀ r n, f.type? = some (.int64 r) → Effective f .i64 (.i64 n) → IntMeets r n
  uint32 : ∀ r n, f.type? = some (.uint32 r) → Effective f .u32 (.u32 n) → IntMeets r n
  uint64 : ∀ r n, f.type? = some (.uint64 r) → Effective f .u64 (.u64 n) → IntMeets r n
  bool : ∀ c b, f.type? = some (.bool (some c)) → Effective f .bool (.bool b) → b = c
  string : ∀ r s, f.type? = some (.string r) → Effective f .string (.string s) →
    (∀ k, r.minLen = some k → k ≤ s.utf8ByteSize) ∧ (∀ k, r.maxLen = some k → s.utf8ByteSize ≤ k) ∧ r.other = false
  enum : ∀ r d, f.type? = some (.enum r) → Effective f .enum (.enum d) → (r.definedOnly = true → d = true) ∧ r.other = false
  repeated : ∀ r l, f.type? = some (.repeated r) → f.content = .many l →
    (∀ k, r.minItems = some k → k ≤ l.length) ∧ r.other = false
  required : ∀ r m, f.rules = some r → r.message = some m → m.required = true → f.content ≠ .one .message none
  duration : ∀ r m d, f.type? = some (.duration r) → f.content = .one .message (some (.message m)) → m.duration = some d →
    r.required = false ∧ r.other = false ∧ ∃ n, d = some n ∧ ∀ g, r.gt = some g → ∃ k, g = some k ∧ k < n

/-- A duration with duration rules: it is checked and not looked into. -/
def IsDuration (f : Field) : Prop :=
  ∃ r m d, f.type? = some (.duration r) ∧ f.content = .one .message (some (.message m)) ∧ m.duration = some d

/-- `y` is in a field of `m`. -/
inductive Sub : Msg → Msg → Prop where
  | one {m f t y} : f ∈ m.fields → f.content = .one t (some (.message y)) → ¬ IsDuration f → Sub m y
  | many {m f l y} : f ∈ m.fields → f.content = .many l → Value.message y ∈ l → Sub m y
  | map {m f l k y} : f ∈ m.fields → f.content = .map l → (k, Value.message y) ∈ l → Sub m y

/-- `y` is `m` or somewhere in it. -/
inductive Reach (m : Msg) : Msg → Prop where
  | refl : Reach m m
  | step {x y} : Reach m x → Sub x y → Reach m y

/-- A field has something in it. -/
def Present (f : Field) : Prop :=
  (∃ t v, f.content = .one t (some v)) ∨ (∃ l, f.content = .many l ∧ l ≠ []) ∨ (∃ l, f.content = .map l ∧ l ≠ [])

/-- What a message itself must meet. -/
def MsgOk (m : Msg) : Prop :=
  (∀ o ∈ m.oneofs, o.required = true → ∃ i ∈ o.fields, ∃ f, m.fields[i]? = some f ∧ Present f) ∧ ∀ f ∈ m.fields, FieldOk f

/-! ### Fields -/

theorem zero_iff {t v} : Zero t v ↔ t.default = some v := by
  constructor
  · intro h; cases h <;> rfl
  · intro h
    cases t <;> simp only [Ty.default, Option.some.injEq, reduceCtorEq] at h <;> subst h <;> constructor

theorem effective_one {r o t v t' x} : Effective (.mk r o (.one t v)) t' x ↔ t' = t ∧ singularOrDefault o t v = some x := by
  constructor
  · intro h
    cases h with
    | set => refine ⟨rfl, ?_⟩; unfold singularOrDefault; cases o <;> rfl
    | zero h => exact ⟨rfl, (zero_iff.1 h)⟩
  · rintro ⟨rfl, h⟩
    unfold singularOrDefault at h
    cases v with
    | some v =>
      have : v = x := by cases o <;> simpa using h
      subst this; exact .set
    | none =>
      cases o with
      | true => simp at h
      | false => exact .zero (zero_iff.2 (by simpa using h))

theorem effective_many {r o l t x} : ¬ Effective (.mk r o (.many l)) t x := by intro h; cases h
theorem effective_map {r o l t x} : ¬ Effective (.mk r o (.map l)) t x := by intro h; cases h

theorem intOk_iff {r n} : intOk r n = true ↔ IntMeets r n := by
  unfold intOk IntMeets
  cases r.gt <;> cases r.other <;> simp

theorem fieldOk_none {o c} : FieldOk (.mk none o c) := by
  constructor <;> simp [Field.type?, Field.rules]

theorem fieldOk_many {r o l} (h : unsupported r.type = false) :
    FieldOk (.mk (some r) o (.many l)) ↔
      ∀ q, r.type = some (.repeated q) → (∀ k, q.minItems = some k → k ≤ l.length) ∧ q.other = false := by
  constructor
  · intro g q hq; exact g.repeated q l hq rfl
  · intro g
    constructor <;> simp only [Field.type?, Field.rules, Field.content, Option.bind_some, effective_many, ne_eq, reduceCtorEq,
      not_false_eq_true, implies_true, false_implies, Content.many.injEq, Option.some.injEq]
    · refine ⟨?_, ?_, ?_, ?_, ?_, ?_⟩ <;> intro e <;> rw [e] at h <;> simp [unsupported] at h
    · rintro q l' hq rfl; exact g q hq

theorem fieldOk_map {r o l} (h : unsupported r.type = false) :
    FieldOk (.mk (some r) o (.map l)) ↔ r.type ≠ some .map := by
  constructor
  · intro g e; exact g.map e l rfl
  · intro g
    constructor <;> simp only [Field.type?, Field.rules, Field.content, Option.bind_some, effective_map, ne_eq, reduceCtorEq,
      not_false_eq_true, implies_true, false_implies, Content.map.injEq, Option.some.injEq]
    · refine ⟨?_, ?_, ?_, ?_, ?_, ?_⟩ <;> intro e <;> rw [e] at h <;> simp [unsupported] at h
    · intro e; exact absurd e g

theorem enumOk_iff {r x} : enumOk r x = true ↔ ∀ d, x = some (.enum d) → (r.definedOnly = true → d = true) ∧ r.other = false := by
  unfold enumOk
  split
  · rename_i d
    cases r.definedOnly <;> cases r.other <;> cases d <;> simp
  · rename_i h
    simp only [true_iff]
    intro d e; exact absurd e (h d)

theorem boolOk_iff {c x} : boolOk c x = true ↔ ∀ k b, c = some k → x = some (.bool b) → b = k := by
  unfold boolOk
  split
  · rename_i b
    cases c with
    | none => simp
    | some c => cases c <;> cases b <;> simp
  · rename_i h
    simp only [true_iff]
    intro k b _ e; exact absurd e (h b)

theorem stringOk_iff {r x} : stringOk r x = true ↔ ∀ s, x = some (.string s) →
    (∀ k, r.minLen = some k → k ≤ s.utf8ByteSize) ∧ (∀ k, r.maxLen = some k → s.utf8ByteSize ≤ k) ∧ r.other = false := by
  unfold stringOk
  split
  · rename_i s
    cases r.minLen <;> cases r.maxLen <;> cases r.other <;> simp
  · rename_i h
    simp only [true_iff]
    intro s e; exact absurd e (h s)

theorem fieldOk_scalar {r o t v} (h : unsupported r.type = false) (ht : t ≠ .message) :
    FieldOk (.mk (some r) o (.one t v)) ↔ scalarOk t r.type (singularOrDefault o t v) = true := by
  obtain ⟨mr, ty⟩ := r
  simp only at h ⊢
  have key : FieldOk (.mk (some ⟨mr, ty⟩) o (.one t v)) ↔
      ((ty = some .float → t ≠ .f32) ∧ (ty = some .double → t ≠ .f64) ∧ (ty = some .bytes → t ≠ .bytes) ∧
      (∀ r n, ty = some (.int32 r) → Effective (.mk (some ⟨mr, ty⟩) o (.one t v)) .i32 (.i32 n) → IntMeets r n) ∧
      (∀ r n, ty = some (.int64 r) → Effective (.mk (some ⟨mr, ty⟩) o (.one t v)) .i64 (.i64 n) → IntMeets r n) ∧
      (∀ r n, ty = some (.uint32 r) → Effective (.mk (some ⟨mr, ty⟩) o (.one t v)) .u32 (.u32 n) → IntMeets r n) ∧
      (∀ r n, ty = some (.uint64 r) → Effective (.mk (some ⟨mr, ty⟩) o (.one t v)) .u64 (.u64 n) → IntMeets r n) ∧
      (∀ c b, ty = some (.bool (some c)) → Effective (.mk (some ⟨mr, ty⟩) o (.one t v)) .bool (.bool b) → b = c) ∧
      (∀ r s, ty = some (.string r) → Effective (.mk (some ⟨mr, ty⟩) o (.one t v)) .string (.string s) →
        (∀ k, r.minLen = some k → k ≤ s.utf8ByteSize) ∧ (∀ k, r.maxLen = some k → s.utf8ByteSize ≤ k) ∧ r.other = false) ∧
      (∀ r d, ty = some (.enum r) → Effective (.mk (some ⟨mr, ty⟩) o (.one t v)) .enum (.enum d) →
        (r.definedOnly = true → d = true) ∧ r.other = false)) := by
    constructor
    · intro g
      exact ⟨fun e => by rintro rfl; exact g.float e v rfl, fun e => by rintro rfl; exact g.double e v rfl,
        fun e => by rintro rfl; exact g.bytes e v rfl, g.int32, g.int64, g.uint32, g.uint64, g.bool, g.string, g.enum⟩
    · rintro ⟨a, b, c, i32, i64, u32, u64, bl, st, en⟩
      refine { groups := ?_, float := ?_, double := ?_, bytes := ?_, map := ?_, int32 := i32, int64 := i64, uint32 := u32,
               uint64 := u64, bool := bl, string := st, enum := en, repeated := ?_, required := ?_, duration := ?_ } <;>
        simp only [Field.type?, Field.rules, Field.content, Option.bind_some, ne_eq, reduceCtorEq, not_false_eq_true,
          implies_true, false_implies, Content.one.injEq, not_and, ht, false_and]
      · refine ⟨?_, ?_, ?_, ?_, ?_, ?_⟩ <;> intro e <;> rw [e] at h <;> simp [unsupported] at h
      · intro e _ e'; exact absurd e' (a e)
      · intro e _ e'; exact absurd e' (b e)
      · intro e _ e'; exact absurd e' (c e)
  rw [key]
  simp only [effective_one]
  generalize singularOrDefault o t v = x
  rcases ty with _ | ty
  · cases t <;> simp [scalarOk]
  · cases ty <;> cases t <;> first
      | (exfalso; exact ht rfl)
      | (simp [scalarOk]; done)
      | (simp only [scalarOk, stringOk_iff, boolOk_iff, enumOk_iff]; simp; done)
      | (simp only [scalarOk, stringOk_iff, enumOk_iff, reduceCtorEq, false_implies, implies_true, true_and, and_true,
           Option.some.injEq, TypeRule.enum.injEq, TypeRule.string.injEq, ne_eq, not_false_eq_true, false_and]
         exact ⟨fun g s e => g _ s rfl e, by rintro g r s rfl e; exact g s e⟩)
      | (simp only [scalarOk]; cases x with
        | none => simp
        | some x => cases x <;> simp [intOk_iff])

theorem durationOk_iff {r d} : durationOk r d = true ↔
    r.required = false ∧ r.other = false ∧ ∃ n, d = some n ∧ ∀ g, r.gt = some g → ∃ k, g = some k ∧ k < n := by
  unfold durationOk
  cases r.required <;> cases r.other <;> cases d <;> simp
  cases r.gt with
  | none => simp
  | some g => cases g <;> simp

theorem fieldOk_message {r o v} (h : unsupported r.type = false) :
    FieldOk (.mk (some r) o (.one .message v)) ↔ (messageField r v).isSome = true := by
  have key : FieldOk (.mk (some r) o (.one .message v)) ↔
      ((∀ m, r.message = some m → m.required = true → v ≠ none) ∧
       (∀ q m d, r.type = some (.duration q) → v = some (.message m) → m.duration = some d →
         q.required = false ∧ q.other = false ∧ ∃ n, d = some n ∧ ∀ g, q.gt = some g → ∃ k, g = some k ∧ k < n)) := by
    constructor
    · intro g
      refine ⟨?_, ?_⟩
      · rintro m e1 e2 rfl; exact g.required r m rfl e1 e2 rfl
      · rintro q m d e1 rfl e3; exact g.duration q m d e1 rfl e3
    · rintro ⟨a, b⟩
      constructor <;> simp only [Field.type?, Field.rules, Field.content, Option.bind_some, effective_one, ne_eq, reduceCtorEq,
        not_false_eq_true, implies_true, false_implies, Content.one.injEq, Option.some.injEq, false_and, true_and]
      · refine ⟨?_, ?_, ?_, ?_, ?_, ?_⟩ <;> intro e <;> rw [e] at h <;> simp [unsupported] at h
      · rintro r' m rfl e1 e2; exact a m e1 e2
      · rintro q m d e1 rfl e3; exact b q m d e1 rfl e3
  rw [key]
  unfold messageField
  obtain ⟨mr, ty⟩ := r
  simp only at key ⊢
  split
  · rename_i c
    simp only [Option.isSome_none, Bool.false_eq_true, iff_false, not_and]
    intro g
    exfalso
    rw [Bool.and_eq_true] at c
    cases mr with
    | none => simp at c
    | some m => exact g m rfl c.1 (by simpa using c.2)
  · rename_i c
    have c' : ∀ m, mr = some m → m.required = true → v ≠ none := by
      rintro m rfl e rfl; simp [e] at c
    rw [eq_true c', true_and] <;> try exact c'
    split
    · rename_i q m
      cases hd : m.duration with
      | none =>
        simp only [Option.isSome_some, iff_true]
        intro q' m' d' _ e2 e3
        simp only [Option.some.injEq, Value.message.injEq] at e2
        subst e2; rw [hd] at e3; cases e3
      | some d =>
        simp only
        have := @durationOk_iff q d
        constructor
        · intro g
          rw [if_pos (this.2 (g q m d rfl rfl hd))]; rfl
        · intro g q' m' d' e1 e2 e3
          simp only [Option.some.injEq, TypeRule.duration.injEq, Value.message.injEq] at e1 e2
          subst e1; subst e2
          rw [hd] at e3; cases e3
          split at g
          · rename_i g'; exact this.1 g'
          · simp at g
    · rename_i hn
      simp only [Option.isSome_some, iff_true]
      rintro q m d rfl rfl; exact absurd rfl (hn q m rfl)

theorem validateField_mk (r : Rules) (o : Bool) (c : Content) : validateField (.mk (some r) o c) =
    if unsupported r.type then none
    else match c with
      | .one .message v => messageField r v
      | .one t v => if scalarOk t r.type (singularOrDefault o t v) then some true else none
      | .many l => match r.type with
        | some (.repeated rr) => if repeatedOk rr l.length then some true else none
        | _ => some true
      | .map _ => match r.type with
        | some .map => none
        | _ => some true := rfl

/-- A field gets through `validate_field` exactly if it meets its rules. -/
theorem validateField_isSome (f : Field) : (validateField f).isSome = true ↔ FieldOk f := by
  obtain ⟨r, o, c⟩ := f
  cases r with
  | none => simpa [validateField, Field.rules] using fieldOk_none
  | some r =>
    rw [validateField_mk]
    by_cases hu : unsupported r.type = true
    · rw [if_pos hu]
      simp only [Option.isSome_none, Bool.false_eq_true, false_iff]
      intro g
      have := g.groups
      simp only [Field.type?, Field.rules, Option.bind_some] at this
      revert hu
      unfold unsupported
      split <;> simp_all
    · rw [if_neg hu]
      have hu : unsupported r.type = false := by simpa using hu
      cases c with
      | one t v =>
        by_cases ht : t = .message
        · subst ht; rw [fieldOk_message hu]
        · rw [fieldOk_scalar hu ht]
          by_cases hb : scalarOk t r.type (singularOrDefault o t v) = true
          · cases t <;> first
              | exact absurd rfl ht
              | (simp only; rw [if_pos hb]; simp [hb])
          · cases t <;> first
              | exact absurd rfl ht
              | (simp only; rw [if_neg hb]; simp [hb])
      | many l =>
        rw [fieldOk_many hu]
        simp only
        split
        · rename_i q e
          rw [e]
          unfold repeatedOk
          cases hm : q.minItems <;> cases ho : q.other <;> simp [hm, ho]
        · rename_i e
          simp only [Option.isSome_some, true_iff]
          intro q e'; exact absurd e' (e q)
      | map l =>
        rw [fieldOk_map hu]
        simp only
        split <;> simp_all

/-- `validate_field` says not to look into a field only for durations. -/
theorem validateField_false (f : Field) (h : FieldOk f) : validateField f = some false ↔ IsDuration f := by
  have hs := (validateField_isSome f).2 h
  obtain ⟨r, o, c⟩ := f
  cases r with
  | none => simp [validateField, Field.rules, IsDuration, Field.type?]
  | some r =>
    rw [validateField_mk] at hs ⊢
    simp only [Field.rules, Field.content, IsDuration, Field.type?, Option.bind_some]
    by_cases hu : unsupported r.type = true
    · rw [if_pos hu] at hs; simp at hs
    · rw [if_neg hu] at hs ⊢
      cases c with
      | one t v =>
        by_cases ht : t = .message
        · subst ht
          simp only [messageField] at hs ⊢
          split
          · rename_i c; rw [if_pos c] at hs; simp at hs
          · rename_i c
            rw [if_neg c] at hs
            simp only [Content.one.injEq, true_and]
            split
            · rename_i q m e1
              simp only [e1] at hs
              cases hd : m.duration with
              | none => simp [hd]
              | some d =>
                simp only [hd] at hs
                simp only
                split at hs
                · rename_i c; rw [if_pos c]; simp [hd, e1]
                · simp at hs
            · rename_i hn
              simp only [Option.some.injEq, Bool.true_eq_false, false_iff]
              rintro ⟨q, m, d, e1, e2, e3⟩
              exact hn q m e1 e2
        · by_cases hb : scalarOk t r.type (singularOrDefault o t v) = true
          · cases t <;> first
              | exact absurd rfl ht
              | (simp only [Content.one.injEq, reduceCtorEq, false_and, and_false, exists_false, iff_false]
                 rw [if_pos hb]; simp)
          · cases t <;> first
              | exact absurd rfl ht
              | (simp only [Content.one.injEq, reduceCtorEq, false_and, and_false, exists_false, iff_false]
                 rw [if_neg hb]; simp)
      | many l =>
        simp only [reduceCtorEq, false_and, and_false, exists_false, iff_false]
        split
        · split <;> simp
        · simp
      | map l =>
        simp only [reduceCtorEq, false_and, and_false, exists_false, iff_false]
        split <;> simp

/-! ### Messages -/

theorem isSet_iff {f : Field} : f.isSet = true ↔ Present f := by
  unfold Field.isSet Present
  cases f.content with
  | one t v => cases v <;> simp
  | many l => cases l <;> simp
  | map l => cases l <;> simp

theorem oneofsOk_iff {l fs} : oneofsOk l fs = true ↔
    ∀ o ∈ l, o.required = true → ∃ i ∈ o.fields, ∃ f, fs[i]? = some f ∧ Present f := by
  unfold oneofsOk
  rw [List.all_eq_true]
  refine forall_congr' fun o => forall_congr' fun _ => ?_
  simp only [Bool.not_eq_true', Bool.and_eq_false_iff, Bool.not_eq_false']
  constructor
  · rintro (h | h) hr
    · rw [h] at hr; cases hr
    · rw [List.any_eq_true] at h
      obtain ⟨i, hi, h⟩ := h
      split at h
      · rename_i f hf; exact ⟨i, hi, f, hf, isSet_iff.1 h⟩
      · cases h
  · intro h
    by_cases hr : o.required = true
    · right
      obtain ⟨i, hi, f, hf, hp⟩ := h hr
      rw [List.any_eq_true]
      refine ⟨i, hi, ?_⟩
      rw [hf]; exact isSet_iff.2 hp
    · left; simpa using hr

theorem validateFields_iff {l} : validateFields l = true ↔ ∀ f ∈ l, f.validate = true := by
  induction l with
  | nil => simp [validateFields]
  | cons f l ih => simp [validateFields, ih]

theorem value_iff {v : Value} : v.validate = true ↔ ∀ m, v = .message m → m.validate = true := by
  cases v <;> simp [Value.validate]

theorem validateList_iff {l} : validateList l = true ↔ ∀ m, Value.message m ∈ l → m.validate = true := by
  induction l with
  | nil => simp [validateList]
  | cons v l ih =>
    simp only [validateList, Bool.and_eq_true, ih, value_iff, List.mem_cons]
    constructor
    · rintro ⟨a, b⟩ m (h | h)
      · exact a m h.symm
      · exact b m h
    · intro h; exact ⟨fun m e => h m (.inl e.symm), fun m e => h m (.inr e)⟩

theorem validateMap_iff {l} : validateMap l = true ↔ ∀ k m, (k, Value.message m) ∈ l → m.validate = true := by
  induction l with
  | nil => simp [validateMap]
  | cons v l ih =>
    obtain ⟨k, v⟩ := v
    simp only [validateMap, validatePair, Bool.and_eq_true, ih, value_iff, List.mem_cons, Prod.mk.injEq]
    constructor
    · rintro ⟨a, b⟩ k' m (h | h)
      · exact a m h.2.symm
      · exact b k' m h
    · intro h; exact ⟨fun m e => h k m (.inl ⟨rfl, e.symm⟩), fun k' m e => h k' m (.inr e)⟩

theorem content_iff {c : Content} : c.validate = true ↔
    (∀ t m, c = .one t (some (.message m)) → m.validate = true) ∧
    (∀ l m, c = .many l → Value.message m ∈ l → m.validate = true) ∧
    (∀ l k m, c = .map l → (k, Value.message m) ∈ l → m.validate = true) := by
  cases c with
  | one t v =>
    cases v with
    | none => simp [Content.validate, validateOpt]
    | some v =>
      simp only [Content.validate, validateOpt, value_iff, reduceCtorEq, false_implies, implies_true, and_true,
        Content.one.injEq, Option.some.injEq]
      exact ⟨fun g _ m e => g m e.2, fun g m e => g t m ⟨rfl, e⟩⟩
  | many l =>
    simp only [Content.validate, validateList_iff, reduceCtorEq, false_implies, implies_true, and_true, true_and,
      Content.many.injEq]
    exact ⟨fun g l' m e h => g m (e ▸ h), fun g m h => g l m rfl h⟩
  | map l =>
    simp only [Content.validate, validateMap_iff, reduceCtorEq, false_implies, implies_true, true_and,
      Content.map.injEq]
    exact ⟨fun g l' k m e h => g k m (e ▸ h), fun g k m h => g l k m rfl h⟩

theorem field_iff {f : Field} : f.validate = true ↔ FieldOk f ∧ (¬ IsDuration f → f.content.validate = true) := by
  have h1 := validateField_isSome f
  have h2 := validateField_false f
  obtain ⟨r, o, c⟩ := f
  unfold Field.validate
  cases hv : validateField (.mk r o c) with
  | none =>
    rw [hv] at h1
    simp only [Bool.false_eq_true, false_iff, not_and]
    intro h; exact absurd (h1.2 h) (by simp)
  | some b =>
    rw [hv] at h1 h2
    have ok := h1.1 rfl
    have h2 := h2 ok
    cases b with
    | false => simp [ok, h2.1 rfl]
    | true =>
      have : ¬ IsDuration (.mk r o c) := fun e => by have := h2.2 e; simp at this
      simp only [Field.content]
      constructor
      · intro h; exact ⟨ok, fun _ => h⟩
      · intro h; exact h.2 this

theorem not_duration_many {f : Field} {l} (h : f.content = .many l) : ¬ IsDuration f := by
  rintro ⟨r, m, d, _, e, _⟩; rw [h] at e; cases e
theorem not_duration_map {f : Field} {l} (h : f.content = .map l) : ¬ IsDuration f := by
  rintro ⟨r, m, d, _, e, _⟩; rw [h] at e; cases e

/-- One level. -/
theorem validate_iff (m : Msg) : m.validate = true ↔ MsgOk m ∧ ∀ y, Sub m y → y.validate = true := by
  have : m.validate = (oneofsOk m.oneofs m.fields && validateFields m.fields) := by cases m; rfl
  rw [this, Bool.and_eq_true, oneofsOk_iff, validateFields_iff]
  unfold MsgOk
  constructor
  · rintro ⟨a, b⟩
    refine ⟨⟨a, fun f hf => (field_iff.1 (b f hf)).1⟩, ?_⟩
    intro y hy
    cases hy with
    | one hf hc hd => exact (content_iff.1 ((field_iff.1 (b _ hf)).2 hd)).1 _ _ hc
    | many hf hc hm => exact (content_iff.1 ((field_iff.1 (b _ hf)).2 (not_duration_many hc))).2.1 _ _ hc hm
    | map hf hc hm => exact (content_iff.1 ((field_iff.1 (b _ hf)).2 (not_duration_map hc))).2.2 _ _ _ hc hm
  · rintro ⟨⟨a, b⟩, c⟩
    refine ⟨a, fun f hf => field_iff.2 ⟨b f hf, fun hd => content_iff.2 ⟨?_, ?_, ?_⟩⟩⟩
    · intro t y hc; exact c y (.one hf hc hd)
    · intro l y hc hm; exact c y (.many hf hc hm)
    · intro l k y hc hm; exact c y (.map hf hc hm)

theorem Sub.lt {m y : Msg} (h : Sub m y) : sizeOf y < sizeOf m := by
  have hm : ∀ f ∈ m.fields, sizeOf f.content < sizeOf m := by
    intro f hf
    have h1 := List.sizeOf_lt_of_mem hf
    cases m with
    | mk d o fs =>
      cases f with
      | mk r o' c =>
        simp only [Msg.fields] at h1
        simp only [Field.content, Msg.mk.sizeOf_spec, Field.mk.sizeOf_spec] at h1 ⊢
        omega
  cases h with
  | one hf hc _ =>
    have := hm _ hf
    rw [hc] at this
    simp only [Content.one.sizeOf_spec, Option.some.sizeOf_spec, Value.message.sizeOf_spec] at this
    omega
  | many hf hc hv =>
    have := hm _ hf
    have h2 := List.sizeOf_lt_of_mem hv
    rw [hc] at this
    simp only [Content.many.sizeOf_spec, Value.message.sizeOf_spec] at this h2
    omega
  | map hf hc hv =>
    have := hm _ hf
    have h2 := List.sizeOf_lt_of_mem hv
    rw [hc] at this
    simp only [Content.map.sizeOf_spec, Prod.mk.sizeOf_spec, Value.message.sizeOf_spec] at this h2
    omega

theorem Reach.head {m x y : Msg} (h : Sub m x) (g : Reach x y) : Reach m y := by
  induction g with
  | refl => exact .step .refl h
  | step _ s ih => exact .step ih s

/-- C49: a message is accepted exactly if every message in it, itself included, has its required oneofs set and fields
that meet their rules.  What the rules are taken to say is `FieldOk`; see below for where that is less than what was
written. -/
theorem C49_exact_partial (m : Msg) : m.validate = true ↔ ∀ x, Reach m x → MsgOk x := by
  constructor
  · intro h x hx
    have : x.validate = true := by
      induction hx with
      | refl => exact h
      | step _ s ih => exact ((validate_iff _).1 ih).2 _ s
    exact ((validate_iff x).1 this).1
  · intro h
    induction hn : sizeOf m using Nat.strongRecOn generalizing m with
    | ind n ih =>
      subst hn
      refine (validate_iff m).2 ⟨h m .refl, fun y hy => ?_⟩
      exact ih _ hy.lt y (fun x hx => h x (.head hy hx)) rfl

/-- Two fields under one rule, a repeated field of messages in a singular one. -/
def Ex.inner (n : Int) (s : String) : Msg :=
  .mk none [⟨true, [1, 2]⟩]
    [.mk (some ⟨none, some (.int32 { gt := some 2 })⟩) false (.one .i32 (some (.i32 n))),
     .mk none true (.one .string (some (.string s))), .mk none true (.one .bool none)]

def Ex.outer (l : List Msg) : Msg :=
  .mk none [] [.mk (some ⟨none, some (.repeated { minItems := some 1 })⟩) false (.many (l.map .message)),
    .mk (some ⟨some { required := true }, some (.duration { gt := some (some 0) })⟩) false
      (.one .message (some (.message (.mk (some (some 5)) [] []))))]

example : (Ex.outer [Ex.inner 3 "a", Ex.inner 4 ""]).validate = true ∧ (Ex.outer [Ex.inner 3 "a", Ex.inner 2 ""]).validate = false ∧
    (Ex.outer []).validate = false := by decide +kernel

example : ∀ x, Reach (Ex.outer [Ex.inner 3 "a", Ex.inner 4 ""]) x → MsgOk x :=
  (C49_exact_partial _).1 (by decide +kernel)

/-! ### Rules that are passed over -/

/-- A message with one field. -/
def single (r : Rules) (optional : Bool) (c : Content) : Msg := .mk none [] [.mk (some r) optional c]

/-- A rule for a field of type `sint32` is neither checked nor reported: here `sint32.gt = 5` and the value 0, although
the same as `int32.gt` is rejected. -/
theorem C49_sint_violated :
    (single ⟨none, some (.sint32 { gt := some 5 })⟩ false (.one .i32 (some (.i32 0)))).validate = true ∧
    (single ⟨none, some (.int32 { gt := some 5 })⟩ false (.one .i32 (some (.i32 0)))).validate = false := by decide +kernel

/-- `duration.required` and the other rules for durations that are not supported are reported only for a duration that is
there: a missing one is accepted. -/
theorem C49_duration_violated :
    (single ⟨none, some (.duration { required := true })⟩ false (.one .message none)).validate = true ∧
    (single ⟨none, some (.duration { required := true })⟩ false
      (.one .message (some (.message (.mk (some (some 1)) [] []))))).validate = false := by decide +kernel

/-- `string.min_len` and `max_len` count characters; the code counts bytes, so one character passes for two, and two
characters are too many for a limit of two. -/
theorem C49_length_violated :
    (single ⟨none, some (.string { minLen := some 2 })⟩ false (.one .string (some (.string "é")))).validate = true ∧
    "é".length = 1 ∧
    (single ⟨none, some (.string { maxLen := some 2 })⟩ false (.one .string (some (.string "éé")))).validate = false ∧
    "éé".length = 2 := by decide +kernel

/-- `string.ignore_empty` is passed over: an empty string with `min_len` is rejected all the same.  For integers and
repeated fields the rule is reported. -/
theorem C49_ignore_empty_violated :
    (single ⟨none, some (.string { minLen := some 2, ignoreEmpty := true })⟩ false (.one .string none)).validate = false ∧
    (single ⟨none, some (.string { ignoreEmpty := true })⟩ false (.one .string none)).validate = true := by decide +kernel

/-- Scalar rules on a wrapper message such as `google.protobuf.StringValue` and `message.skip` are passed over. -/
theorem C49_wrapper_violated (r : StringRules) (v : Option Value) (optional : Bool) :
    validateField (.mk (some ⟨none, some (.string r)⟩) optional (.one .message v)) = some true ∧
    validateField (.mk (some ⟨some { skip := true }, none⟩) optional (.one .message v)) = some true := by
  constructor <;> simp [validateField, Field.rules, Field.content, unsupported, messageField, Option.any]

/-- Whether a rule for the kind of a field is one that is not supported. -/
def NotSupported : Field → Prop
  | .mk (some ⟨_, some ty⟩) o c => match ty, c with
    | .any, _ | .timestamp, _ | .fixed32, _ | .fixed64, _ | .sfixed32, _ | .sfixed64, _ => True
    | .float, .one .f32 _ | .double, .one .f64 _ | .bytes, .one .bytes _ | .map, .map _ => True
    | .int32 r, .one .i32 v | .int64 r, .one .i64 v | .uint32 r, .one .u32 v | .uint64 r, .one .u64 v =>
      r.other = true ∧ (v ≠ none ∨ o = false)
    | .string r, .one .string v => r.other = true ∧ (v ≠ none ∨ o = false)
    | .enum r, .one .enum v => r.other = true ∧ (v ≠ none ∨ o = false)
    | .repeated r, .many _ => r.other = true
    | .duration r, .one .message (some (.message m)) => m.duration ≠ none ∧ (r.required = true ∨ r.other = true)
    | _, _ => False
  | _ => False

/-- A value is of the type of its field. -/
def Typed : Field → Prop
  | .mk _ _ (.one t (some v)) => match t, v with
    | .i32, .i32 _ | .i64, .i64 _ | .u32, .u32 _ | .u64, .u64 _ | .f32, .f32 | .f64, .f64 | .bool, .bool _
    | .string, .string _ | .bytes, .bytes | .enum, .enum _ | .message, .message _ => True
    | _, _ => False
  | _ => True

theorem effective_of {r o t v} (ht : Typed (.mk r o (.one t v))) (h : v ≠ none ∨ o = false) :
    (t = .i32 → ∃ n, Effective (.mk r o (.one t v)) .i32 (.i32 n)) ∧ (t = .i64 → ∃ n, Effective (.mk r o (.one t v)) .i64 (.i64 n)) ∧
    (t = .u32 → ∃ n, Effective (.mk r o (.one t v)) .u32 (.u32 n)) ∧ (t = .u64 → ∃ n, Effective (.mk r o (.one t v)) .u64 (.u64 n)) ∧
    (t = .string → ∃ n, Effective (.mk r o (.one t v)) .string (.string n)) ∧
    (t = .enum → ∃ n, Effective (.mk r o (.one t v)) .enum (.enum n)) := by
  cases v with
  | none =>
    have ho : o = false := by simpa using h
    subst ho
    refine ⟨?_, ?_, ?_, ?_, ?_, ?_⟩ <;> rintro rfl <;> exact ⟨_, .zero (by constructor)⟩
  | some v =>
    refine ⟨?_, ?_, ?_, ?_, ?_, ?_⟩ <;> rintro rfl <;> cases v <;> first
      | exact ⟨_, .set⟩
      | exact ht.elim

/-- A rule that is not supported is never passed over if it is of the kind of its field and there is a value it applies
to: the message is rejected.  Missing for the full statement: the cases above. -/
theorem C49_unsupported_partial (m x : Msg) (hx : Reach m x) (f : Field) (hf : f ∈ x.fields) (ht : Typed f)
    (hn : NotSupported f) : m.validate = false := by
  rw [Bool.eq_false_iff]
  intro h
  have ok := ((C49_exact_partial m).1 h x hx).2 f hf
  unfold NotSupported at hn
  split at hn
  · rename_i f mr ty o c
    have g := ok.groups
    simp only [Field.type?, Field.rules, Option.bind_some, ne_eq] at g
    split at hn
    · exact g.1 rfl
    · exact g.2.1 rfl
    · exact g.2.2.1 rfl
    · exact g.2.2.2.1 rfl
    · exact g.2.2.2.2.1 rfl
    · exact g.2.2.2.2.2 rfl
    · exact ok.float rfl _ rfl
    · exact ok.double rfl _ rfl
    · exact ok.bytes rfl _ rfl
    · exact ok.map rfl _ rfl
    · obtain ⟨n, e⟩ := (effective_of ht hn.2).1 rfl
      have := (ok.int32 _ n rfl e).2; rw [hn.1] at this; cases this
    · obtain ⟨n, e⟩ := (effective_of ht hn.2).2.1 rfl
      have := (ok.int64 _ n rfl e).2; rw [hn.1] at this; cases this
    · obtain ⟨n, e⟩ := (effective_of ht hn.2).2.2.1 rfl
      have := (ok.uint32 _ n rfl e).2; rw [hn.1] at this; cases this
    · obtain ⟨n, e⟩ := (effective_of ht hn.2).2.2.2.1 rfl
      have := (ok.uint64 _ n rfl e).2; rw [hn.1] at this; cases this
    · obtain ⟨n, e⟩ := (effective_of ht hn.2).2.2.2.2.1 rfl
      have := (ok.string _ n rfl e).2.2; rw [hn.1] at this; cases this
    · obtain ⟨n, e⟩ := (effective_of ht hn.2).2.2.2.2.2 rfl
      have := (ok.enum _ n rfl e).2; rw [hn.1] at this; cases this
    · have := (ok.repeated _ _ rfl rfl).2; rw [hn] at this; cases this
    · rename_i r m'
      cases hd : m'.duration with
      | none => exact hn.1 hd
      | some d =>
        obtain ⟨a, b, _⟩ := ok.duration _ _ d rfl rfl hd
        rcases hn.2 with e | e
        · rw [a] at e; cases e
        · rw [b] at e; cases e
    · exact hn
  · exact hn

example : NotSupported (.mk (some ⟨none, some (.string { other := true })⟩) false (.one .string none)) ∧
    Typed (.mk (some ⟨none, some (.string { other := true })⟩) false (.one .string none)) := ⟨⟨rfl, .inr rfl⟩, trivial⟩

end Verif.Pgv
