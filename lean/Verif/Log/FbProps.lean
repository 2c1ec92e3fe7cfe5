import Verif.Log.Fb

/-
C95: a log read back from a buffer is the log that was written.
-/
namespace Verif.Fb

/-! ### Objects stay where they are -/

theorem get_left {h y : List Obj} {o : Nat} {x : Obj} (e : h[o]? = some x) : (h ++ y)[o]? = some x := by
  rw [List.getElem?_append_left (List.getElem?_eq_some_iff.1 e).1]; exact e

theorem strAt_left {h y : List Obj} {o : Nat} {s : Str} (e : strAt h o = some s) : strAt (h ++ y) o = some s := by
  unfold strAt at e
  split at e
  · rename_i h1; cases e; unfold strAt; rw [get_left h1]
  · cases e

theorem bytesAt_left {h y : List Obj} {o : Nat} {s : Str} (e : bytesAt h o = some s) : bytesAt (h ++ y) o = some s := by
  unfold bytesAt at e
  split at e
  · rename_i h1; cases e; unfold bytesAt; rw [get_left h1]
  · cases e

theorem vecAt_left {h y : List Obj} {o : Nat} {s : List Nat} (e : vecAt h o = some s) : vecAt (h ++ y) o = some s := by
  unfold vecAt at e
  split at e
  · rename_i h1; cases e; unfold vecAt; rw [get_left h1]
  · cases e

theorem tableAt_left {h y : List Obj} {o : Nat} {s : List (Nat × Slot)} (e : tableAt h o = some s) : tableAt (h ++ y) o = some s := by
  unfold tableAt at e
  split at e
  · rename_i h1; cases e; unfold tableAt; rw [get_left h1]
  · cases e

theorem strAt_new (h : List Obj) (s : Str) : strAt (h ++ [.str s]) h.length = some s := by simp [strAt]
theorem bytesAt_new (h : List Obj) (s : Str) : bytesAt (h ++ [.bytes s]) h.length = some s := by simp [bytesAt]
theorem vecAt_new (h : List Obj) (s : List Nat) : vecAt (h ++ [.vec s]) h.length = some s := by simp [vecAt]
theorem tableAt_new (h : List Obj) (s : List (Nat × Slot)) : tableAt (h ++ [.table s]) h.length = some s := by simp [tableAt]

/-- What is read from a value. -/
def Val.view : Val → UVal
  | .string s => .string s
  | .bytes b => .bytes b

theorem readUnion_left {h y : List Obj} {tag : Int} {o : Nat} {v : UVal} (e : readUnion h tag o = some v) :
    readUnion (h ++ y) tag o = some v := by
  unfold readUnion at e ⊢
  split
  · rename_i ht
    rw [if_pos ht] at e
    simp only [Option.bind_eq_bind, Option.bind_eq_some_iff, Option.pure_def, Option.some.injEq] at e
    obtain ⟨t, h1, r, h2, s, h3, h4⟩ := e
    simp [tableAt_left h1, h2, strAt_left h3, h4]
  · rename_i ht
    rw [if_neg ht] at e
    split
    · rename_i ht2
      rw [if_pos ht2] at e
      simp only [Option.bind_eq_bind, Option.bind_eq_some_iff, Option.pure_def, Option.some.injEq] at e
      obtain ⟨t, h1, r, h2, s, h3, h4⟩ := e
      simp [tableAt_left h1, h2, bytesAt_left h3, h4]
    · rename_i ht2
      rw [if_neg ht2] at e; exact e

theorem readField_left {h y : List Obj} {o : Nat} {v : Str × UVal} (e : readField h o = some v) : readField (h ++ y) o = some v := by
  unfold readField at e ⊢
  simp only [Option.bind_eq_bind, Option.bind_eq_some_iff, Option.pure_def, Option.some.injEq] at e
  obtain ⟨t, h1, r, h2, k, h3, tag, h4, u, h5, w, h6, h7⟩ := e
  simp [tableAt_left h1, h2, strAt_left h3, h4, h5, readUnion_left h6, h7]

theorem readAll_mono {α : Type} {f g : Nat → Option α} (hfg : ∀ o v, f o = some v → g o = some v) : ∀ (os : List Nat) (vs : List α),
    readAll f os = some vs → readAll g os = some vs
  | [], vs, e => e
  | o :: os, vs, e => by
    simp only [readAll, Option.bind_eq_bind, Option.bind_eq_some_iff, Option.pure_def, Option.some.injEq] at e ⊢
    obtain ⟨x, h1, xs, h2, h3⟩ := e
    exact ⟨x, hfg _ _ h1, xs, readAll_mono hfg os xs h2, h3⟩

/-! ### Writing -/

/-- A builder that is neither inside a table nor finished. -/
abbrev Builder.at (h : List Obj) : Builder := ⟨h, none, none⟩

theorem create_at (h : List Obj) (o : Obj) : (Builder.at h).create o = some (h.length, Builder.at (h ++ [o])) := rfl

theorem mkUnion_spec (h : List Obj) (v : Val) : ∃ o tag x, mkUnion (Builder.at h) v = some (o, tag, Builder.at (h ++ x)) ∧
    readUnion (h ++ x) tag o = some v.view ∧ tag ≠ 0 := by
  cases v with
  | string s =>
    refine ⟨h.length + 1, 1, [.str s, .table [(4, .offset h.length)]], ?_, ?_, by decide⟩
    · simp [mkUnion, Builder.create, Builder.startTable, Builder.slot, Builder.endTable, slotAt, Builder.at]
    · simp [readUnion, tableAt, strAt, getRequired, slotAt, Val.view]
  | bytes s =>
    refine ⟨h.length + 1, 2, [.bytes s, .table [(6, .offset h.length)]], ?_, ?_, by decide⟩
    · simp [mkUnion, Builder.create, Builder.startTable, Builder.slot, Builder.endTable, slotAt, Builder.at]
    · simp [readUnion, tableAt, bytesAt, getRequired, slotAt, Val.view]

theorem mkField_spec (h : List Obj) (f : Str × Val) : ∃ o x, mkField (Builder.at h) f = some (o, Builder.at (h ++ x)) ∧
    readField (h ++ x) o = some (f.1, f.2.view) := by
  obtain ⟨vo, tag, x, h1, h2, h3⟩ := mkUnion_spec (h ++ [.str f.1]) f.2
  have hne : ¬ (tag : Int) = 0 := by omega
  let tab : List (Nat × Slot) := [(8, .offset vo), (4, .offset h.length), (6, .scalar .u8 tag)]
  refine ⟨(h ++ [Obj.str f.1] ++ x).length, [Obj.str f.1] ++ x ++ [Obj.table tab], ?_, ?_⟩
  · simp only [mkField, create_at, Option.bind_eq_bind, Option.bind_some, h1]
    simp [Builder.startTable, Builder.slot, Builder.slotUnless, Builder.endTable, slotAt, h3, tab]
  · have e : h ++ ([Obj.str f.1] ++ x ++ [Obj.table tab]) = (h ++ [Obj.str f.1] ++ x) ++ [Obj.table tab] := by simp
    rw [e]
    have s1 : strAt (h ++ [.str f.1] ++ x ++ [.table tab]) h.length = some f.1 := strAt_left (strAt_left (strAt_new h f.1))
    have s2 := readUnion_left (y := [.table tab]) h2
    unfold readField
    rw [tableAt_new]
    have r4 : getRequired tab 4 = some h.length := rfl
    have r8 : getRequired tab 8 = some vo := rfl
    have r6 : getScalar tab 6 .u8 0 = some (tag : Int) := rfl
    simp only [Option.bind_eq_bind, Option.bind_some, r4, r6, r8, s1, s2, Option.pure_def]

theorem mkFields_spec : ∀ (fs : List (Str × Val)) (h : List Obj), ∃ os x, mkFields (Builder.at h) fs = some (os, Builder.at (h ++ x)) ∧
    readAll (readField (h ++ x)) os = some (fs.map fun f => (f.1, f.2.view))
  | [], h => ⟨[], [], by simp [mkFields], by simp [readAll]⟩
  | f :: fs, h => by
    obtain ⟨o, x, h1, h2⟩ := mkField_spec h f
    obtain ⟨os, y, h3, h4⟩ := mkFields_spec fs (h ++ x)
    refine ⟨o :: os, x ++ y, ?_, ?_⟩
    · simp only [mkFields, Option.bind_eq_bind, h1, Option.bind_some, h3, Option.pure_def, List.append_assoc]
    · have e := readField_left (y := y) h2
      rw [← List.append_assoc]
      simp only [readAll, Option.bind_eq_bind, e, h4, Option.bind_some, Option.pure_def, List.map_cons]

theorem mkStrings_spec : ∀ (ss : List Str) (h : List Obj), ∃ os x, mkStrings (Builder.at h) ss = some (os, Builder.at (h ++ x)) ∧
    readAll (strAt (h ++ x)) os = some ss ∧ os.length = ss.length
  | [], h => ⟨[], [], by simp [mkStrings], by simp [readAll], rfl⟩
  | s :: ss, h => by
    obtain ⟨os, y, h3, h4, h5⟩ := mkStrings_spec ss (h ++ [.str s])
    refine ⟨h.length :: os, [.str s] ++ y, ?_, ?_, by simp [h5]⟩
    · simp only [mkStrings, Option.bind_eq_bind, create_at, Option.bind_some, h3, Option.pure_def, List.append_assoc]
    · have e := strAt_left (y := y) (strAt_new h s)
      rw [← List.append_assoc]
      simp only [readAll, Option.bind_eq_bind, e, h4, Option.bind_some, Option.pure_def]

theorem mkStringVector_spec (h : List Obj) (ss : List Str) : ∃ r x, mkStringVector (Builder.at h) ss = some (r, Builder.at (h ++ x)) ∧
    ∀ y, optionally r (readStrings (h ++ x ++ y)) = some (if ss = [] then none else some ss) := by
  obtain ⟨os, x, h1, h2, h3⟩ := mkStrings_spec ss h
  cases os with
  | nil =>
    have : ss = [] := List.length_eq_zero_iff.1 h3.symm
    exact ⟨none, x, by simp [mkStringVector, h1], fun y => by simp [optionally, this]⟩
  | cons o os =>
    have hne : ss ≠ [] := by rintro rfl; simp at h3
    refine ⟨some (h ++ x).length, x ++ [.vec (o :: os)], ?_, ?_⟩
    · simp [mkStringVector, h1, Builder.create]
    · intro y
      rw [← List.append_assoc]
      have e1 := vecAt_left (y := y) (vecAt_new (h ++ x) (o :: os))
      have e2 : readAll (strAt (h ++ x ++ [.vec (o :: os)] ++ y)) (o :: os) = some ss :=
        readAll_mono (fun _ _ e => strAt_left (strAt_left e)) _ _ h2
      simp only [optionally, readStrings, Option.bind_eq_bind, e1, Option.bind_some, e2, Option.map_some, if_neg hne]

theorem nanos_range (t : Int) : 0 ≤ t - t / 1000000000 * 1000000000 ∧ t - t / 1000000000 * 1000000000 < 1000000000 := by omega

theorem wrap32_id {z : Int} (h0 : 0 ≤ z) (h1 : z < 1000000000) : wrap32 z = z := by
  unfold wrap32; omega

/-- Scalars survive whether they are stored or left out. -/
theorem mkTimestamp_spec (h : List Obj) (t : Int) : ∃ o x, mkTimestamp (Builder.at h) t = some (o, Builder.at (h ++ x)) ∧
    ∀ y, readTimestamp (h ++ x ++ y) o = some (t / 1000000000, t % 1000000000) := by
  have hr := nanos_range t
  have hw := wrap32_id hr.1 hr.2
  have hm : t - t / 1000000000 * 1000000000 = t % 1000000000 := by omega
  rw [hm] at hw
  by_cases hs : t / 1000000000 = 0 <;> by_cases hn : t % 1000000000 = 0
  · refine ⟨h.length, [.table []], ?_, ?_⟩
    · simp only [mkTimestamp, hm, hw]
      simp [hs, hn, Builder.startTable, Builder.slotUnless, Builder.endTable]
    · intro y
      unfold readTimestamp
      rw [tableAt_left (y := y) (tableAt_new h _)]
      simp [getScalar, slotAt, hs, hn]
  · refine ⟨h.length, [.table [(6, .scalar .i32 (t % 1000000000))]], ?_, ?_⟩
    · simp only [mkTimestamp, hm, hw]
      simp [hs, hn, Builder.startTable, Builder.slotUnless, Builder.endTable]
    · intro y
      unfold readTimestamp
      rw [tableAt_left (y := y) (tableAt_new h _)]
      simp [getScalar, slotAt, hs]
  · refine ⟨h.length, [.table [(4, .scalar .i64 (t / 1000000000))]], ?_, ?_⟩
    · simp only [mkTimestamp, hm, hw]
      simp [hs, hn, Builder.startTable, Builder.slotUnless, Builder.endTable]
    · intro y
      unfold readTimestamp
      rw [tableAt_left (y := y) (tableAt_new h _)]
      simp [getScalar, slotAt, hn]
  · refine ⟨h.length, [.table [(4, .scalar .i64 (t / 1000000000)), (6, .scalar .i32 (t % 1000000000))]], ?_, ?_⟩
    · simp only [mkTimestamp, hm, hw]
      simp [hs, hn, Builder.startTable, Builder.slotUnless, Builder.endTable]
    · intro y
      unfold readTimestamp
      rw [tableAt_left (y := y) (tableAt_new h _)]
      simp [getScalar, slotAt]

/-- The table of the log gives back its arguments. -/
theorem mkLogTable_spec (h : List Obj) (level logType msg tag fields session ts : Nat) (ids streams : Option Nat) (htag : tag ≠ 0) :
    ∃ t, mkLogTable (Builder.at h) level logType msg tag fields session ts ids streams = some (h.length, Builder.at (h ++ [.table t])) ∧
      getScalar t 4 .u32 0 = some (level : Int) ∧ getScalar t 6 .u8 0 = some (tag : Int) ∧ getRequired t 8 = some msg ∧
      getOffset t 10 = some (some fields) ∧ getOffset t 12 = some (some session) ∧ getOffset t 14 = some (some ts) ∧
      getOffset t 16 = some ids ∧ getScalar t 18 .u32 0 = some (logType : Int) ∧ getOffset t 20 = some streams := by
  have hne : ¬ (tag : Int) = 0 := by omega
  by_cases hl : (level : Int) = 0 <;> by_cases ht : (logType : Int) = 0 <;> cases ids <;> cases streams <;>
    simp only [mkLogTable, Builder.startTable, Builder.slotOpt, Builder.slot, Builder.slotUnless, Builder.endTable, slotAt, hl, ht, hne,
      Option.bind_eq_bind, Option.bind_some, if_true, if_false, List.nil_append, List.cons_append] <;>
    refine ⟨_, rfl, ?_⟩ <;>
    simp [getScalar, getRequired, getOffset, slotAt, hl, ht]

/-- What is expected when the log is read. -/
def LogIn.view (l : LogIn) : View where
  level := l.level
  logType := l.logType
  message := l.message.view
  fields := some (l.fields.map fun f => (f.1, f.2.view))
  session := some l.session
  timestamp := some (l.time / 1000000000, l.time % 1000000000)
  actionIds := if l.actionIds = [] then none else some l.actionIds
  streamIds := if l.streamIds = [] then none else some l.streamIds

theorem tables_view (l : LogIn) : l.view.tables = 3 + 2 * l.fields.length := by
  have hs : ∀ fs : List (Str × Val), ((fs.map fun f => (f.1, f.2.view)).map fun f : Str × UVal =>
      1 + f.2.tables).sum = 2 * fs.length := by
    intro fs
    induction fs with
    | nil => rfl
    | cons f fs ih =>
      simp only [List.map_cons, List.sum_cons, List.length_cons]
      rw [ih]
      cases f.2 <;> simp only [Val.view, UVal.tables] <;> omega
  unfold View.tables LogIn.view
  simp only
  rw [hs]
  cases l.message <;> simp only [Val.view, UVal.tables] <;> omega

theorem build_spec (l : LogIn) : ∃ h, build Builder.empty l = some ⟨h, none, some (h.length - 1)⟩ ∧
    ∀ limit, rootAsLog limit ⟨h, h.length - 1⟩ = if 3 + 2 * l.fields.length ≤ limit then some l.view else none := by
  obtain ⟨msg, tag, x1, a1, r1, ht⟩ := mkUnion_spec [] l.message
  obtain ⟨fs, x2, a2, r2⟩ := mkFields_spec l.fields ([] ++ x1)
  obtain ⟨st, x3, a3, r3⟩ := mkStringVector_spec ([] ++ x1 ++ x2) l.streamIds
  let h3 := [] ++ x1 ++ x2 ++ x3
  let h4 := h3 ++ [.vec fs]
  let h5 := h4 ++ [.str l.session]
  obtain ⟨ts, x6, a6, r6⟩ := mkTimestamp_spec h5 l.time
  obtain ⟨ids, x7, a7, r7⟩ := mkStringVector_spec (h5 ++ x6) l.actionIds
  obtain ⟨t, a8, g4, g6, g8, g10, g12, g14, g16, g18, g20⟩ :=
    mkLogTable_spec (h5 ++ x6 ++ x7) l.level l.logType msg tag h3.length h4.length ts ids st ht
  refine ⟨h5 ++ x6 ++ x7 ++ [.table t], ?_, ?_⟩
  · have e : Builder.empty = Builder.at [] := rfl
    have c1 : (Builder.at h3).create (.vec fs) = some (h3.length, Builder.at h4) := rfl
    have c2 : (Builder.at h4).create (.str l.session) = some (h4.length, Builder.at h5) := rfl
    unfold build
    rw [e, a1]
    simp only [Option.bind_eq_bind, Option.bind_some]
    rw [a2]
    simp only [Option.bind_some]
    rw [a3]
    simp only [Option.bind_some]
    rw [c1]
    simp only [Option.bind_some]
    rw [c2]
    simp only [Option.bind_some]
    rw [a6]
    simp only [Option.bind_some]
    rw [a7]
    simp only [Option.bind_some]
    rw [a8]
    simp only [Option.bind_some, Builder.finish, Option.some.injEq, Builder.mk.injEq, true_and, List.length_append, List.length_cons, List.length_nil]
    omega
  · intro limit
    have hlen : (h5 ++ x6 ++ x7 ++ [Obj.table t]).length - 1 = (h5 ++ x6 ++ x7).length := by
      simp only [List.length_append, List.length_cons, List.length_nil]; omega
    rw [hlen]
    have T := tableAt_new (h5 ++ x6 ++ x7) t
    have hassoc : h5 ++ x6 ++ x7 ++ [Obj.table t] = h3 ++ ([Obj.vec fs] ++ [Obj.str l.session] ++ x6 ++ x7 ++ [.table t]) := by
      simp [h5, h4]
    have R1 : readUnion (h5 ++ x6 ++ x7 ++ [.table t]) tag msg = some l.message.view := by
      rw [hassoc]
      have := readUnion_left (y := x2 ++ x3 ++ ([.vec fs] ++ [.str l.session] ++ x6 ++ x7 ++ [.table t])) r1
      simpa [h3] using this
    have R2 : readAll (readField (h5 ++ x6 ++ x7 ++ [.table t])) fs = some (l.fields.map fun f => (f.1, f.2.view)) := by
      rw [hassoc]
      have := readAll_mono (g := readField ([] ++ x1 ++ x2 ++ (x3 ++ ([.vec fs] ++ [.str l.session] ++ x6 ++ x7 ++ [.table t]))))
        (fun _ _ e => readField_left e) _ _ r2
      simpa [h3] using this
    have V2 : vecAt (h5 ++ x6 ++ x7 ++ [.table t]) h3.length = some fs := by
      have := vecAt_left (y := [.str l.session] ++ x6 ++ x7 ++ [.table t]) (vecAt_new h3 fs)
      simpa [h5, h4] using this
    have R3 : optionally st (readStrings (h5 ++ x6 ++ x7 ++ [.table t])) = some (if l.streamIds = [] then none else some l.streamIds) := by
      rw [hassoc]
      exact r3 _
    have R4 : strAt (h5 ++ x6 ++ x7 ++ [.table t]) h4.length = some l.session := by
      have := strAt_left (y := x6 ++ x7 ++ [.table t]) (strAt_new h4 l.session)
      simpa [h5] using this
    have R5 : readTimestamp (h5 ++ x6 ++ x7 ++ [.table t]) ts = some (l.time / 1000000000, l.time % 1000000000) := by
      have := r6 (x7 ++ [.table t])
      simpa using this
    have R6 : optionally ids (readStrings (h5 ++ x6 ++ x7 ++ [.table t])) = some (if l.actionIds = [] then none else some l.actionIds) := by
      exact r7 _
    unfold rootAsLog
    simp only [T, Option.bind_eq_bind, Option.bind_some, g4, g6, g8, R1, g10, g12, g14, g16, g18, g20, R3, R6]
    simp only [optionally, V2, Option.bind_some, R2, R4, R5, Option.map_some]
    have := tables_view l
    unfold LogIn.view at this ⊢
    rw [this]

/-! ### The theorems -/

/-- **C95 (round trip).** Whatever the log and whatever the output does, `make_log` gives the output one buffer, returns what the output
returns, leaves the builder as new, and the buffer reads as exactly this log: level, type, message and every field with its kind, the
fields in order, the session, the time as seconds and nanoseconds, the ids (none instead of an empty list).  The verifier refuses only
logs with more tables than its limit. -/
theorem C95_roundtrip (l : LogIn) (output : Buf → Bool) : ∃ d, makeLog Builder.empty l output = some (d, output d, Builder.empty) ∧
    ∀ limit, 3 + 2 * l.fields.length ≤ limit → ∃ v, rootAsLog limit d = some v ∧
      v.level = l.level ∧ v.logType = l.logType ∧
      v.message = (match l.message with | .string s => .string s | .bytes b => .bytes b) ∧
      v.fields = some (l.fields.map fun f => (f.1, match f.2 with | .string s => .string s | .bytes b => .bytes b)) ∧
      v.session = some l.session ∧
      (∃ s n, v.timestamp = some (s, n) ∧ s * 1000000000 + n = l.time ∧ 0 ≤ n ∧ n < 1000000000) ∧
      v.actionIds = (if l.actionIds = [] then none else some l.actionIds) ∧
      v.streamIds = (if l.streamIds = [] then none else some l.streamIds) := by
  obtain ⟨h, h1, h2⟩ := build_spec l
  refine ⟨⟨h, h.length - 1⟩, ?_, ?_⟩
  · simp only [makeLog, Option.bind_eq_bind, h1, Option.bind_some, Builder.data, Option.map_some, Option.pure_def]
  · intro limit hl
    have e := h2 limit
    rw [if_pos hl] at e
    have hv : ∀ v : Val, v.view = (match v with | .string s => .string s | .bytes b => .bytes b) := by intro v; cases v <;> rfl
    refine ⟨l.view, e, rfl, rfl, hv _, ?_, rfl, ⟨_, _, rfl, ?_, ?_, ?_⟩, rfl, rfl⟩
    · simp only [LogIn.view, hv]
    all_goals omega

/-- **C95 (refused).** A log is refused when read exactly if it has more tables than the limit of the verifier. -/
theorem C95_refused (l : LogIn) (output : Buf → Bool) (limit : Nat) (d : Buf) (r : Bool) (b : Builder)
    (h : makeLog Builder.empty l output = some (d, r, b)) : rootAsLog limit d = none ↔ limit < 3 + 2 * l.fields.length := by
  obtain ⟨hp, h1, h2⟩ := build_spec l
  simp only [makeLog, Option.bind_eq_bind, h1, Option.bind_some, Builder.data, Option.map_some, Option.pure_def, Option.some.injEq,
    Prod.mk.injEq] at h
  rw [← h.1, h2 limit]
  split <;> simp <;> omega

/-- **C95 (one builder).** Any number of logs can go through one builder: none panics, and each gives the buffer it gives with a new
builder, whatever happened to the outputs of the others. -/
theorem C95_independent (ls : List (LogIn × (Buf → Bool))) : ∃ ds, makeLogs Builder.empty ls = some (ds, Builder.empty) ∧
    ds.length = ls.length ∧
    ∀ (i : Nat) (l : LogIn) (out : Buf → Bool), ls[i]? = some (l, out) → ∃ d, ds[i]? = some (d, out d) ∧ makeLog Builder.empty l out = some (d, out d, Builder.empty) := by
  induction ls with
  | nil => exact ⟨[], rfl, rfl, by simp⟩
  | cons p ls ih =>
    obtain ⟨l, out⟩ := p
    obtain ⟨ds, h1, h2, h3⟩ := ih
    obtain ⟨d, e, -⟩ := C95_roundtrip l out
    refine ⟨(d, out d) :: ds, ?_, by simp [h2], ?_⟩
    · simp only [makeLogs, Option.bind_eq_bind, e, Option.bind_some, h1, Option.pure_def]
    · intro i l' out' hi
      cases i with
      | zero =>
        simp only [List.getElem?_cons_zero, Option.some.injEq, Prod.mk.injEq] at hi
        obtain ⟨rfl, rfl⟩ := hi
        exact ⟨d, rfl, e⟩
      | succ i => exact h3 i l' out' hi

theorem view_inj {a b : LogIn} (h : a.view = b.view) : a = b := by
  have hv : ∀ u w : Val, u.view = w.view → u = w := by
    intro u w e; cases u <;> cases w <;> simp [Val.view] at e <;> rw [e]
  have hf : ∀ u w : List (Str × Val), (u.map fun f => (f.1, f.2.view)) = (w.map fun f => (f.1, f.2.view)) → u = w := by
    intro u
    induction u with
    | nil => intro w e; cases w with | nil => rfl | cons _ _ => simp at e
    | cons p u ih =>
      intro w e
      cases w with
      | nil => simp at e
      | cons q w =>
        simp only [List.map_cons, List.cons.injEq, Prod.mk.injEq] at e
        obtain ⟨⟨e1, e2⟩, e3⟩ := e
        rw [ih w e3, Prod.ext e1 (hv _ _ e2)]
  have hi : ∀ x y : List Str, (if x = [] then none else some x) = (if y = [] then none else some y) → x = y := by
    intro x y e
    by_cases hx : x = [] <;> by_cases hy : y = [] <;> simp [hx, hy] at e ⊢ <;> exact e
  cases a; cases b
  simp only [LogIn.view, View.mk.injEq, Option.some.injEq, Prod.mk.injEq] at h
  obtain ⟨h1, h2, h3, h4, h5, ⟨h6, h6'⟩, h7, h8⟩ := h
  simp only [LogIn.mk.injEq]
  refine ⟨by omega, by omega, hv _ _ h3, hf _ _ h4, h5, by omega, hi _ _ h7, hi _ _ h8⟩

/-- **C95 (nothing lost).** Two logs with the same buffer are the same log. -/
theorem C95_injective (a b : LogIn) (out : Buf → Bool) (d : Buf) (ra rb : Bool) (ba bb : Builder)
    (ha : makeLog Builder.empty a out = some (d, ra, ba)) (hb : makeLog Builder.empty b out = some (d, rb, bb)) : a = b := by
  obtain ⟨h, h1, h2⟩ := build_spec a
  obtain ⟨g, g1, g2⟩ := build_spec b
  simp only [makeLog, Option.bind_eq_bind, h1, Option.bind_some, Builder.data, Option.map_some, Option.pure_def, Option.some.injEq,
    Prod.mk.injEq] at ha
  simp only [makeLog, Option.bind_eq_bind, g1, Option.bind_some, Builder.data, Option.map_some, Option.pure_def, Option.some.injEq,
    Prod.mk.injEq] at hb
  have e := h2 (3 + 2 * a.fields.length + (3 + 2 * b.fields.length))
  have e' := g2 (3 + 2 * a.fields.length + (3 + 2 * b.fields.length))
  rw [ha.1, if_pos (by omega)] at e
  rw [hb.1, if_pos (by omega)] at e'
  rw [e] at e'
  exact view_inj (Option.some.inj e')

/-- **C95 (age).** A triggered upload drops a log written by `make_log` exactly if it is older than the window, compared to the
nanosecond, and does not panic. -/
theorem C95_age (l : LogIn) (output : Buf → Bool) (limit : Nat) (d : Buf) (r : Bool) (b : Builder)
    (h : makeLog Builder.empty l output = some (d, r, b)) (hl : 3 + 2 * l.fields.length ≤ limit)
    (lo hi w : Int) (hlo : lo * 1000000000 ≤ l.time) (hhi : l.time < (hi + 1) * 1000000000) :
    lookback lo hi (some w) limit (some d) = (if l.time < w then .drop else .keep) := by
  obtain ⟨hp, h1, h2⟩ := build_spec l
  simp only [makeLog, Option.bind_eq_bind, h1, Option.bind_some, Builder.data, Option.map_some, Option.pure_def, Option.some.injEq,
    Prod.mk.injEq] at h
  have e := h2 limit
  rw [h.1, if_pos hl] at e
  have ht : l.time / 1000000000 * 1000000000 + l.time % 1000000000 = l.time := by omega
  simp only [lookback, Option.bind_some, e, LogIn.view, ht]
  rw [if_pos (by omega), if_pos (by omega)]

/-- **C95 (kept).** Nothing else is dropped: without a window, or if the bytes are not a log or carry no time, the entry is kept. -/
theorem C95_kept (lo hi : Int) (limit : Nat) (w : Option Int) (d : Option Buf)
    (h : w = none ∨ ∀ b v, d = some b → rootAsLog limit b = some v → v.timestamp = none) :
    lookback lo hi w limit d = .keep := by
  unfold lookback
  cases w with
  | none => rfl
  | some w =>
    rcases h with h | h
    · cases h
    · simp only
      cases hd : d.bind (rootAsLog limit) with
      | none => rfl
      | some v =>
        obtain ⟨b, hb, hv⟩ := Option.bind_eq_some_iff.1 hd
        simp only [h b v hb hv]

/-- **C95 (age), partial.** For any bytes at all the check does not panic, if the seconds are those of a representable time and the
nanoseconds are less than a second.  Missing, because false: any bytes; see the violation. -/
theorem C95_no_panic_partial (lo hi : Int) (w : Option Int) (limit : Nat) (d : Option Buf)
    (h : ∀ b v s n, d = some b → rootAsLog limit b = some v → v.timestamp = some (s, n) → lo ≤ s ∧ s ≤ hi ∧ 0 ≤ n ∧ n < 1000000000) :
    lookback lo hi w limit d ≠ .panic := by
  unfold lookback
  cases w with
  | none => simp
  | some w =>
    simp only
    cases hd : d.bind (rootAsLog limit) with
    | none => simp
    | some v =>
      obtain ⟨b, hb, hv⟩ := Option.bind_eq_some_iff.1 hd
      simp only
      cases ht : v.timestamp with
      | none => simp
      | some p =>
        obtain ⟨s, n⟩ := p
        obtain ⟨k1, k2, k3, k4⟩ := h b v s n hb hv ht
        simp only
        rw [if_pos ⟨k1, k2⟩, if_pos (by omega)]
        split <;> simp

/-- **C95 violated.** A buffer that passes the verifier but whose seconds are out of range makes the upload task panic
(consumer.rs:665), for all bounds of the time type. -/
theorem C95_foreign_time_violated (lo hi w : Int) (limit : Nat) (hl : 3 ≤ limit) (h0 : 0 ≤ hi) :
    ∃ d v, rootAsLog limit d = some v ∧ lookback lo hi (some w) limit (some d) = .panic := by
  let d : Buf := ⟨[.str [], .table [(4, .offset 0)], .table [(4, .scalar .i64 (hi + 1))],
    .table [(14, .offset 2), (8, .offset 1), (6, .scalar .u8 1)]], 3⟩
  have e : rootAsLog limit d = some ⟨0, 0, .string [], none, none, some (hi + 1, 0), none, none⟩ := by
    simp [rootAsLog, d, tableAt, getScalar, slotAt, getRequired, readUnion, strAt, getOffset, optionally, readTimestamp, View.tables, UVal.tables]
    exact if_pos hl
  refine ⟨d, _, e, ?_⟩
  simp only [lookback, Option.bind_some, e]
  rw [if_neg (by omega)]

example : (makeLog Builder.empty ⟨3, 1, .bytes [9], [([107], .string [118])], [115], -1, [], [[105]]⟩ fun _ => true).map (fun x => rootAsLog 10 x.1) =
    some (some ⟨3, 1, .bytes [9], some [([107], .string [118])], some [115], some (-1, 999999999), none, some [[105]]⟩) := by decide

end Verif.Fb
