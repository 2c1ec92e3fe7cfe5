import Verif.Stats.Bytes
import Verif.Startup.FilesProps
import Verif.Proto.HashProps
/-
C105: metrics in memory, in their file and at the server.
-/
namespace Verif.StatsBytes

open Handshake (Bytes)
open Wire (Msg MsgF V SField table schema write read strField strField_mem bytesAt bytesAt_append bytesAt_strField Fits FitsF FitsV Before HasKey C103_tables C103_roundtrip C103_grpc
  wireCodec ixApiRequest)
open Stats (Metric Hist)
open Files (writeCompressed readCompressed timestampMsg timeOf Zlib C104_compressed timestamp_fits time_back)
open Grpc (Short encodeAll Dec)

/-- The metrics are of their types: names and labels are strings, the keys of the labels are in order and different, numbers have 64 bits. -/
structure Good (utf8 : Bytes → Bool) (x : Id × Metric) : Prop where
  name : utf8 x.1.name = true
  labels : ∀ t ∈ x.1.labels, utf8 t.1 = true ∧ utf8 t.2 = true
  keys : x.1.labels.Pairwise fun a b => Proto.lexLe a.1 b.1 = true ∧ a.1 ≠ b.1
  counter : ∀ n, x.2 = .counter n → n < 2 ^ 64
  values : ∀ vs, x.2 = .hist (.inline vs) → ∀ v ∈ vs, v < 2 ^ 64

/-- Passing through a hash map gives the entries in some order. -/
def Orders (tags : List (Bytes × Bytes) → List (Bytes × Bytes)) : Prop := ∀ l, (tags l).Perm l

/-- The encoding of a sketch can be undone. -/
def Codes (enc : List Nat → Bytes) (dec : Bytes → Option (List Nat)) : Prop := ∀ l, dec (enc l) = some l

variable {M : Type} {k : Nat} {utf8 : Bytes → Bool}

/-! ### The messages are of their types -/

theorem natField_mem {i n : Nat} {x : Nat × V M} (h : x ∈ natField i n) : x = (i, .num n) ∧ n ≠ 0 := by
  unfold natField at h
  split at h
  · cases h
  · rename_i hn; exact ⟨by simpa using h, hn⟩

theorem pairwise_strField {R : Nat × V M → Nat × V M → Prop} (i : Nat) (b : Bytes) : (strField i b).Pairwise R := by
  unfold strField
  split <;> simp

theorem lt_before {hk : M → Bytes → Prop} {ss : List SField} {x y : Nat × V M} (h : x.1 < y.1) (hx : ∀ s g, ss[x.1]? = some s → s.label ≠ .one g) : Before hk ss x y :=
  Or.inl ⟨h, fun s _ g hs _ hl => absurd hl (hx s g hs)⟩

theorem counter_fits {n : Nat} (h : n < 2 ^ 64) : Fits schema utf8 (k + 1) 55 (⟨natField 1 n, []⟩ : MsgF (Msg k)) := by
  have e : schema.fields 55 = Wire.s55 := by decide +kernel
  show FitsF _ _ _ (schema.fields 55) _
  rw [e]
  refine ⟨?_, ?_, nofun, ?_⟩
  · intro x hx
    obtain ⟨rfl, hn⟩ := natField_mem hx
    exact ⟨_, rfl, nofun, h, fun _ => ⟨hn, nofun, nofun⟩⟩
  · unfold natField
    dsimp only
    split <;> simp
  · intro x hx s hs hl
    obtain ⟨rfl, hn⟩ := natField_mem hx
    cases hs; cases hl

theorem inline_mem {vs : List Nat} {x : Nat × V M} (h : x ∈ (if vs = [] then [] else [(0, .nums vs)] : List (Nat × V M))) : x = (0, .nums vs) ∧ vs ≠ [] := by
  split at h
  · cases h
  · rename_i hn; exact ⟨by simpa using h, hn⟩

theorem inline_fits {vs : List Nat} (h : ∀ v ∈ vs, v < 2 ^ 64) : Fits schema utf8 (k + 1) 59 (⟨if vs = [] then [] else [(0, .nums vs)], []⟩ : MsgF (Msg k)) := by
  have e : schema.fields 59 = Wire.s59 := by decide +kernel
  show FitsF _ _ _ (schema.fields 59) _
  rw [e]
  refine ⟨?_, ?_, nofun, ?_⟩
  · intro x hx
    obtain ⟨rfl, hn⟩ := inline_mem hx
    exact ⟨_, rfl, rfl, hn, h⟩
  · dsimp only
    split <;> simp
  · intro x hx s hs hl
    obtain ⟨rfl, hn⟩ := inline_mem hx
    cases hs; cases hl

theorem sketch_fits (b : Bytes) : Fits schema utf8 (k + 1) 58 (⟨strField 0 b, []⟩ : MsgF (Msg k)) := by
  have e : schema.fields 58 = Wire.s58 := by decide +kernel
  show FitsF _ _ _ (schema.fields 58) _
  rw [e]
  refine ⟨?_, pairwise_strField _ _, nofun, ?_⟩
  · intro x hx
    obtain ⟨rfl, hn⟩ := strField_mem hx
    exact ⟨_, rfl, nofun, Or.inl rfl, fun _ => hn⟩
  · intro x hx s hs hl
    obtain ⟨rfl, hn⟩ := strField_mem hx
    cases hs; cases hl

theorem tag_mem {t : Bytes × Bytes} {x : Nat × V (Msg k)} (h : x ∈ (tagMsg (M := Msg k) t).known) : x = (0, .bytes t.1) ∨ x = (1, .bytes t.2) := by
  rcases List.mem_cons.1 h with h | h
  · exact Or.inl h
  · exact Or.inr (List.mem_singleton.1 h)

theorem tag_fits {t : Bytes × Bytes} (h : utf8 t.1 = true ∧ utf8 t.2 = true) : Fits schema utf8 (k + 1) 188 (tagMsg (M := Msg k) t) := by
  have e : schema.fields 188 = Wire.s188 := by decide +kernel
  show FitsF _ _ _ (schema.fields 188) _
  rw [e]
  refine ⟨?_, ?_, nofun, ?_⟩
  · intro x hx
    rcases tag_mem hx with rfl | rfl
    · exact ⟨_, rfl, nofun, Or.inr ⟨rfl, h.1⟩, nofun⟩
    · exact ⟨_, rfl, nofun, Or.inr ⟨rfl, h.2⟩, nofun⟩
  · refine List.Pairwise.cons ?_ (List.Pairwise.cons nofun List.Pairwise.nil)
    intro y hy
    rw [List.mem_singleton.1 hy]
    exact lt_before Nat.zero_lt_one (by rintro s g hs hl; cases hs; cases hl)
  · intro x hx s hs hl
    rcases tag_mem hx with rfl | rfl <;> · cases hs; cases hl

theorem data_fits {enc : List Nat → Bytes} {x : Id × Metric} (h : Good utf8 x) :
    ∃ s, Wire.s60[(dataMsg (M := Msg k) enc x.2).1]? = some s ∧ FitsV (Fits schema utf8 (k + 1)) utf8 s (dataMsg enc x.2).2 ∧ s.label ≠ .map ∧ 2 ≤ (dataMsg (M := Msg k) enc x.2).1 := by
  obtain ⟨i, m⟩ := x
  cases m with
  | counter n => exact ⟨_, rfl, ⟨nofun, _, rfl, counter_fits (h.counter n rfl)⟩, nofun, Nat.le_refl _⟩
  | hist hh =>
    cases hh with
    | inline vs => exact ⟨_, rfl, ⟨nofun, _, rfl, inline_fits (h.values vs rfl)⟩, nofun, by simp [dataMsg]⟩
    | sketch vs => exact ⟨_, rfl, ⟨nofun, _, rfl, sketch_fits _⟩, nofun, by simp [dataMsg]⟩

theorem metric_mem {enc : List Nat → Bytes} {tags : List (Bytes × Bytes) → List (Bytes × Bytes)} {x : Id × Metric} {y : Nat × V (MsgF M)} (h : y ∈ (metricMsg enc tags x).known) :
    (y = (0, .bytes x.1.name) ∧ x.1.name ≠ []) ∨ (∃ t ∈ tags x.1.labels, y = (1, .msg (tagMsg t))) ∨ y = dataMsg enc x.2 := by
  rcases List.mem_append.1 h with h | h
  · rcases List.mem_append.1 h with h | h
    · exact Or.inl (strField_mem h)
    · obtain ⟨t, ht, rfl⟩ := List.mem_map.1 h
      exact Or.inr (Or.inl ⟨t, ht, rfl⟩)
  · exact Or.inr (Or.inr (List.mem_singleton.1 h))

theorem metric_fits {enc : List Nat → Bytes} {tags : List (Bytes × Bytes) → List (Bytes × Bytes)} (ht : Orders tags) {x : Id × Metric} (h : Good utf8 x) :
    Fits schema utf8 (k + 2) 60 (metricMsg (M := Msg k) enc tags x) := by
  have e : schema.fields 60 = Wire.s60 := by decide +kernel
  show FitsF (Fits schema utf8 (k + 1)) (HasKey (k + 1)) utf8 (schema.fields 60) _
  rw [e]
  obtain ⟨sd, hd1, hd2, hd3, hd4⟩ := data_fits (k := k) (enc := enc) h
  refine ⟨?_, ?_, nofun, ?_⟩
  · intro y hy
    rcases metric_mem hy with ⟨rfl, hne⟩ | ⟨t, hm, rfl⟩ | rfl
    · exact ⟨_, rfl, nofun, Or.inr ⟨rfl, h.name⟩, fun _ => hne⟩
    · exact ⟨_, rfl, nofun, _, rfl, tag_fits (h.labels t ((ht _).mem_iff.1 hm))⟩
    · exact ⟨sd, hd1, hd2⟩
  · have h0 : ∀ (s : SField) (g : Nat), Wire.s60[0]? = some s → s.label ≠ .one g := by rintro s g hs hl; cases hs; cases hl
    have h1 : ∀ (s : SField) (g : Nat), Wire.s60[1]? = some s → s.label ≠ .one g := by rintro s g hs hl; cases hs; cases hl
    refine List.pairwise_append.2 ⟨List.pairwise_append.2 ⟨pairwise_strField _ _, ?_, ?_⟩, List.pairwise_singleton _ _, ?_⟩
    · refine List.pairwise_map.2 ?_
      have hk : (tags x.1.labels).Pairwise fun a b => a.1 ≠ b.1 :=
        (ht _).symm.pairwise (h.keys.imp fun h => h.2) fun h => h.symm
      exact hk.imp fun {a b} hab => Or.inr ⟨rfl, _, rfl, Or.inr ⟨rfl, tagMsg a, tagMsg b, a.1, b.1, rfl, rfl, ⟨_, rfl⟩, ⟨_, rfl⟩, hab⟩⟩
    · intro a ha b hb
      obtain ⟨rfl, _⟩ := strField_mem ha
      obtain ⟨t, _, rfl⟩ := List.mem_map.1 hb
      exact lt_before Nat.zero_lt_one h0
    · intro a ha b hb
      rw [List.mem_singleton.1 hb]
      rcases List.mem_append.1 ha with ha | ha
      · obtain ⟨rfl, _⟩ := strField_mem ha
        exact lt_before (Nat.lt_of_lt_of_le (by decide : 0 < 2) hd4) h0
      · obtain ⟨t, _, rfl⟩ := List.mem_map.1 ha
        exact lt_before (Nat.lt_of_lt_of_le (by decide : 1 < 2) hd4) h1
  · intro y hy s hs hl
    rcases metric_mem hy with ⟨rfl, hne⟩ | ⟨t, hm, rfl⟩ | rfl
    · cases hs; cases hl
    · exact ⟨_, t.1, rfl, _, rfl⟩
    · rw [hd1] at hs; cases hs; exact absurd hl hd3

/-- A message with one repeated field of messages. -/
theorem repeated_fits {ix ixe : Nat} (e : schema.fields ix = [⟨1, .msg ixe, .rep⟩]) {α : Type} {f : α → Msg k} {l : List α} (h : ∀ x ∈ l, Fits schema utf8 k ixe (f x)) :
    Fits schema utf8 (k + 1) ix (⟨l.map fun x => (0, .msg (f x)), []⟩ : MsgF (Msg k)) := by
  show FitsF (Fits schema utf8 k) (HasKey k) utf8 (schema.fields ix) _
  rw [e]
  refine ⟨?_, ?_, nofun, ?_⟩
  · intro y hy
    obtain ⟨x, hx, rfl⟩ := List.mem_map.1 hy
    exact ⟨_, rfl, nofun, _, rfl, h x hx⟩
  · rw [List.pairwise_map]
    exact List.pairwise_of_forall fun a b => Or.inr ⟨rfl, _, rfl, Or.inl rfl⟩
  · intro y hy s hs hl
    obtain ⟨x, hx, rfl⟩ := List.mem_map.1 hy
    cases hs; cases hl

theorem stamp_mem {i : Nat} {o : Option Int} {y : Nat × V (MsgF M)} (h : y ∈ stampField i o) : ∃ t, o = some t ∧ y = (i, .msg (timestampMsg t)) := by
  cases o with
  | none => cases h
  | some t => exact ⟨t, rfl, List.mem_singleton.1 h⟩

theorem pairwise_stamp {R : Nat × V (MsgF M) → Nat × V (MsgF M) → Prop} (i : Nat) (o : Option Int) : (stampField i o).Pairwise R := by
  cases o <;> simp [stampField]

def ValidO (o : Option Int) : Prop := ∀ t, o = some t → Time.Valid t

theorem period_fits {start : Int} {stop : Option Int} (h : Time.Valid start) (h' : ValidO stop) : Fits schema utf8 (k + 2) 29 (periodMsg (M := Msg k) start stop) := by
  have e : schema.fields 29 = Wire.s29 := by decide +kernel
  show FitsF (Fits schema utf8 (k + 1)) (HasKey (k + 1)) utf8 (schema.fields 29) _
  rw [e]
  refine ⟨?_, ?_, nofun, ?_⟩
  · intro y hy
    rcases List.mem_append.1 hy with hy | hy
    · obtain ⟨t, ht, rfl⟩ := stamp_mem hy
      cases ht
      exact ⟨_, rfl, nofun, _, rfl, timestamp_fits k utf8 h⟩
    · obtain ⟨t, ht, rfl⟩ := stamp_mem hy
      exact ⟨_, rfl, nofun, _, rfl, timestamp_fits k utf8 (h' t ht)⟩
  · refine List.pairwise_append.2 ⟨pairwise_stamp _ _, pairwise_stamp _ _, ?_⟩
    intro a ha b hb
    obtain ⟨_, _, rfl⟩ := stamp_mem ha
    obtain ⟨_, _, rfl⟩ := stamp_mem hb
    exact lt_before Nat.zero_lt_one (by rintro s g hs hl; cases hs; cases hl)
  · intro y hy s hs hl
    rcases List.mem_append.1 hy with hy | hy <;>
    · obtain ⟨t, ht, rfl⟩ := stamp_mem hy
      cases hs; cases hl

theorem entry_fits {f : PFile} (hn : utf8 f.name = true) (h : Time.Valid f.start) (h' : ValidO f.stop) : Fits schema utf8 (k + 2) 54 (entryMsg (M := Msg k) f) := by
  have e : schema.fields 54 = Wire.s54 := by decide +kernel
  show FitsF (Fits schema utf8 (k + 1)) (HasKey (k + 1)) utf8 (schema.fields 54) _
  rw [e]
  have h0 : ∀ (s : SField) (g : Nat), Wire.s54[0]? = some s → s.label ≠ .one g := by rintro s g hs hl; cases hs; cases hl
  have h1 : ∀ (s : SField) (g : Nat), Wire.s54[1]? = some s → s.label ≠ .one g := by rintro s g hs hl; cases hs; cases hl
  refine ⟨?_, ?_, nofun, ?_⟩
  · intro y hy
    rcases List.mem_append.1 hy with hy | hy
    · rcases List.mem_append.1 hy with hy | hy
      · obtain ⟨rfl, hne⟩ := strField_mem hy
        exact ⟨_, rfl, nofun, Or.inr ⟨rfl, hn⟩, fun _ => hne⟩
      · obtain ⟨t, ht, rfl⟩ := stamp_mem hy
        cases ht
        exact ⟨_, rfl, nofun, _, rfl, timestamp_fits k utf8 h⟩
    · obtain ⟨t, ht, rfl⟩ := stamp_mem hy
      exact ⟨_, rfl, nofun, _, rfl, timestamp_fits k utf8 (h' t ht)⟩
  · refine List.pairwise_append.2 ⟨List.pairwise_append.2 ⟨pairwise_strField _ _, pairwise_stamp _ _, ?_⟩, pairwise_stamp _ _, ?_⟩
    · intro a ha b hb
      obtain ⟨rfl, _⟩ := strField_mem ha
      obtain ⟨_, _, rfl⟩ := stamp_mem hb
      exact lt_before Nat.zero_lt_one h0
    · intro a ha b hb
      obtain ⟨_, _, rfl⟩ := stamp_mem hb
      rcases List.mem_append.1 ha with ha | ha
      · obtain ⟨rfl, _⟩ := strField_mem ha
        exact lt_before (by decide : 0 < 2) h0
      · obtain ⟨_, _, rfl⟩ := stamp_mem ha
        exact lt_before (by decide : 1 < 2) h1
  · intro y hy s hs hl
    rcases List.mem_append.1 hy with hy | hy
    · rcases List.mem_append.1 hy with hy | hy
      · obtain ⟨rfl, hne⟩ := strField_mem hy
        cases hs; cases hl
      · obtain ⟨t, ht, rfl⟩ := stamp_mem hy
        cases hs; cases hl
    · obtain ⟨t, ht, rfl⟩ := stamp_mem hy
      cases hs; cases hl

/-- The snapshot with the time it is of, or without. -/
theorem snapshot_fits {enc : List Nat → Bytes} {tags : List (Bytes × Bytes) → List (Bytes × Bytes)} (ht : Orders tags) {c : Content} (hc : ∀ x ∈ c, Good utf8 x)
    (p : Option (Int × Option Int)) (hp : ∀ x, p = some x → Time.Valid x.1 ∧ ValidO x.2) :
    Fits schema utf8 (k + 4) 28 (⟨(snapshotMsg (M := Msg k) enc tags c).known ++ (p.toList.map fun x => (1, .msg (periodMsg (M := Msg (k + 1)) x.1 x.2))), []⟩ : MsgF (Msg (k + 3))) := by
  have e : schema.fields 28 = Wire.s28 := by decide +kernel
  have e61 : schema.fields 61 = [⟨1, .msg 60, .rep⟩] := by decide +kernel
  show FitsF (Fits schema utf8 (k + 3)) (HasKey (k + 3)) utf8 (schema.fields 28) _
  rw [e]
  have hm : ∀ y ∈ (snapshotMsg (M := Msg k) enc tags c).known ++ (p.toList.map fun x => ((1, .msg (periodMsg (M := MsgF (Msg k)) x.1 x.2)) : Nat × V (MsgF (MsgF (MsgF (Msg k)))))),
      y = (0, .msg ⟨c.map (fun x => (0, .msg (metricMsg enc tags x))), []⟩) ∨ ∃ x, p = some x ∧ y = (1, .msg (periodMsg (M := MsgF (Msg k)) x.1 x.2)) := by
    intro y hy
    rcases List.mem_append.1 hy with hy | hy
    · exact Or.inl (List.mem_singleton.1 hy)
    · obtain ⟨x, hx, rfl⟩ := List.mem_map.1 hy
      exact Or.inr ⟨x, Option.mem_toList.1 hx, rfl⟩
  refine ⟨?_, ?_, nofun, ?_⟩
  · intro y hy
    rcases hm y hy with rfl | ⟨x, hx, rfl⟩
    · exact ⟨_, rfl, nofun, _, rfl, repeated_fits (k := k + 2) e61 (fun x hx => metric_fits ht (hc x hx))⟩
    · exact ⟨_, rfl, nofun, _, rfl, period_fits (k := k + 1) (hp x hx).1 (hp x hx).2⟩
  · refine List.pairwise_append.2 ⟨List.pairwise_singleton _ _, ?_, ?_⟩
    · cases p with
      | none => exact List.Pairwise.nil
      | some x => exact List.pairwise_singleton _ _
    · intro a ha b hb
      rw [List.mem_singleton.1 ha]
      obtain ⟨x, hx, rfl⟩ := List.mem_map.1 hb
      refine Or.inl ⟨Nat.zero_lt_one, ?_⟩
      rintro s s' g hs hs' hl hl'
      cases hs; cases hs'; cases hl; cases hl'
  · intro y hy s hs hl
    rcases hm y hy with rfl | ⟨x, hx, rfl⟩ <;> · cases hs; cases hl

theorem request_fits {uuid : Bytes} (hu : utf8 uuid = true) {m : Msg (k + 4)} (hm : Fits schema utf8 (k + 4) 28 m) (sent : Option Int) (hs : ValidO sent) :
    Fits schema utf8 (k + 5) ixStatsUploadRequest (⟨strField 0 uuid ++ [(1, .msg m)] ++ sent.toList.map fun t => (2, .msg (timestampMsg (M := Msg (k + 3)) t)), []⟩ : MsgF (Msg (k + 4))) := by
  have e : schema.fields ixStatsUploadRequest = Wire.s27 := by decide +kernel
  show FitsF (Fits schema utf8 (k + 4)) (HasKey (k + 4)) utf8 (schema.fields ixStatsUploadRequest) _
  rw [e]
  have h0 : ∀ (s : SField) (g : Nat), Wire.s27[0]? = some s → s.label ≠ .one g := by rintro s g hs hl; cases hs; cases hl
  have h1 : ∀ (s : SField) (g : Nat), Wire.s27[1]? = some s → s.label ≠ .one g := by rintro s g hs hl; cases hs; cases hl
  have hmem : ∀ y ∈ strField 0 uuid ++ [(1, .msg m)] ++ sent.toList.map (fun t => ((2, .msg (timestampMsg (M := Msg (k + 3)) t)) : Nat × V (Msg (k + 4)))),
      (y = (0, .bytes uuid) ∧ uuid ≠ []) ∨ y = (1, .msg m) ∨ ∃ t, sent = some t ∧ y = (2, .msg (timestampMsg (M := Msg (k + 3)) t)) := by
    intro y hy
    rcases List.mem_append.1 hy with hy | hy
    · rcases List.mem_append.1 hy with hy | hy
      · exact Or.inl (strField_mem hy)
      · exact Or.inr (Or.inl (List.mem_singleton.1 hy))
    · obtain ⟨x, hx, rfl⟩ := List.mem_map.1 hy
      exact Or.inr (Or.inr ⟨x, Option.mem_toList.1 hx, rfl⟩)
  refine ⟨?_, ?_, nofun, ?_⟩
  · intro y hy
    rcases hmem y hy with ⟨rfl, hne⟩ | rfl | ⟨t, ht, rfl⟩
    · exact ⟨_, rfl, nofun, Or.inr ⟨rfl, hu⟩, fun _ => hne⟩
    · exact ⟨_, rfl, nofun, _, rfl, hm⟩
    · exact ⟨_, rfl, nofun, _, rfl, timestamp_fits (k + 3) utf8 (hs t ht)⟩
  · refine List.pairwise_append.2 ⟨List.pairwise_append.2 ⟨pairwise_strField _ _, List.pairwise_singleton _ _, ?_⟩, ?_, ?_⟩
    · intro a ha b hb
      obtain ⟨rfl, _⟩ := strField_mem ha
      rw [List.mem_singleton.1 hb]
      exact lt_before Nat.zero_lt_one h0
    · cases sent <;> simp
    · intro a ha b hb
      obtain ⟨x, hx, rfl⟩ := List.mem_map.1 hb
      rcases List.mem_append.1 ha with ha | ha
      · obtain ⟨rfl, _⟩ := strField_mem ha
        exact lt_before (by decide : 0 < 2) h0
      · rw [List.mem_singleton.1 ha]
        exact lt_before (by decide : 1 < 2) h1
  · intro y hy s hs hl
    rcases hmem y hy with ⟨rfl, hne⟩ | rfl | ⟨t, ht, rfl⟩ <;> · cases hs; cases hl

/-! ### What is read from them -/

theorem bytesOf_str (i : Nat) (b : Bytes) (rest : List (Nat × V M)) (h : ∀ y ∈ rest, y.1 ≠ i) : bytesOf ⟨strField i b ++ rest, []⟩ i = b := by
  unfold bytesOf
  dsimp only
  rw [bytesAt_append, bytesAt_strField]
  have : bytesAt i rest = [] := by
    unfold bytesAt
    rw [List.filterMap_eq_nil_iff]
    intro y hy
    rw [if_neg (h y hy)]
  rw [this]
  by_cases hb : b = [] <;> simp [hb]

theorem msgsOf_append (i : Nat) (a b : List (Nat × V M)) (u : List (Nat × Wire.Raw)) :
    msgsOf ⟨a ++ b, u⟩ i = msgsOf ⟨a, []⟩ i ++ msgsOf ⟨b, []⟩ i := List.filterMap_append

theorem msgsOf_other {i : Nat} {l : List (Nat × V M)} (h : ∀ y ∈ l, y.1 ≠ i) : msgsOf ⟨l, []⟩ i = [] := by
  unfold msgsOf
  rw [List.filterMap_eq_nil_iff]
  intro y hy
  rw [if_neg (h y hy)]

theorem msgsOf_map {α : Type} (i : Nat) (f : α → M) (l : List α) : msgsOf ⟨l.map fun x => (i, .msg (f x)), []⟩ i = l.map f := by
  unfold msgsOf
  dsimp only
  rw [List.filterMap_map]
  induction l with
  | nil => rfl
  | cons a l ih => rw [List.filterMap_cons]; simp [ih]

theorem dataOf_back {enc : List Nat → Bytes} {dec : Bytes → Option (List Nat)} (hd : Codes enc dec) {x : Id × Metric} (h : Good utf8 x) {l : List (Nat × V (MsgF M))}
    (hl : ∀ y ∈ l, y.1 < 2) : dataOf dec ⟨l ++ [dataMsg enc x.2], []⟩ = some x.2 := by
  have hf : ∀ y : Nat × V (MsgF M), 2 ≤ y.1 → (l ++ [y]).find? (fun x => decide (2 ≤ x.1)) = some y := by
    intro y hy
    rw [List.find?_append, List.find?_eq_none.2]
    · simp [hy]
    · intro z hz
      have := hl z hz
      simp only [decide_eq_true_eq]
      omega
  obtain ⟨i, m⟩ := x
  unfold dataOf
  dsimp only
  cases m with
  | counter n =>
    rw [show dataMsg enc (.counter n) = ((2, .msg ⟨natField 1 n, []⟩) : Nat × V (MsgF M)) from rfl, hf _ (Nat.le_refl 2)]
    have e1 : natOf (⟨natField 1 n, []⟩ : MsgF M) 1 = n := by
      unfold natOf natField
      by_cases hn : n = 0 <;> simp [hn]
    have e0 : natOf (⟨natField 1 n, []⟩ : MsgF M) 0 = 0 := by
      unfold natOf natField
      by_cases hn : n = 0 <;> simp [hn]
    show (if natOf (⟨natField 1 n, []⟩ : MsgF M) 1 + natOf (⟨natField 1 n, []⟩ : MsgF M) 0 < 2 ^ 64 then
      some (Metric.counter (natOf (⟨natField 1 n, []⟩ : MsgF M) 1 + natOf (⟨natField 1 n, []⟩ : MsgF M) 0)) else none) = _
    rw [e1, e0, if_pos (by simpa using h.counter n rfl)]
    rfl
  | hist hh =>
    cases hh with
    | inline vs =>
      rw [show dataMsg enc (.hist (.inline vs)) = ((5, .msg ⟨if vs = [] then [] else [(0, .nums vs)], []⟩) : Nat × V (MsgF M)) from rfl, hf _ (Nat.le_add_left 2 3)]
      show some (Metric.hist (.inline (numsOf (⟨if vs = [] then [] else [(0, .nums vs)], []⟩ : MsgF M) 0))) = _
      unfold numsOf
      by_cases hv : vs = [] <;> simp [hv]
    | sketch vs =>
      rw [show dataMsg enc (.hist (.sketch vs)) = ((4, .msg ⟨strField 0 (enc vs), []⟩) : Nat × V (MsgF M)) from rfl, hf _ (Nat.le_add_left 2 2)]
      show (dec (bytesOf (⟨strField 0 (enc vs), []⟩ : MsgF M) 0)).map _ = _
      have := bytesOf_str (M := M) 0 (enc vs) [] nofun
      rw [List.append_nil] at this
      rw [this, hd]
      rfl

abbrev KeyLe (a b : Bytes × Bytes) : Prop := Proto.lexLe a.1 b.1 = true ∧ a.1 ≠ b.1

theorem insertTag_perm {t : Bytes × Bytes} {l : List (Bytes × Bytes)} (h : ∀ x ∈ l, t.1 ≠ x.1) : (insertTag t l).Perm (t :: l) := by
  induction l with
  | nil => exact List.Perm.refl _
  | cons x l ih =>
    rw [insertTag, if_neg (h x (by simp))]
    split
    · exact List.Perm.refl _
    · exact ((ih fun y hy => h y (by simp [hy])).cons x).trans (List.Perm.swap t x l)

theorem insertTag_sorted {t : Bytes × Bytes} {l : List (Bytes × Bytes)} (h : ∀ x ∈ l, t.1 ≠ x.1) (hl : l.Pairwise KeyLe) : (insertTag t l).Pairwise KeyLe := by
  induction l with
  | nil => exact List.pairwise_singleton _ _
  | cons x l ih =>
    have hx := List.pairwise_cons.1 hl
    rw [insertTag, if_neg (h x (by simp))]
    split
    · rename_i hle
      refine List.pairwise_cons.2 ⟨?_, hl⟩
      intro y hy
      refine ⟨?_, h y hy⟩
      rcases List.mem_cons.1 hy with rfl | hy
      · exact hle
      · exact Proto.lexLe_trans _ _ _ hle (hx.1 y hy).1
    · rename_i hle
      have ht := fun y hy => h y (List.mem_cons_of_mem x hy)
      refine List.pairwise_cons.2 ⟨?_, ih ht hx.2⟩
      intro y hy
      rcases List.mem_cons.1 ((insertTag_perm ht).mem_iff.1 hy) with rfl | hy
      · have := Proto.lexLe_total y.1 x.1
        simp only [Bool.or_eq_true] at this
        exact ⟨this.resolve_left hle, (h x (by simp)).symm⟩
      · exact hx.1 y hy

theorem collect_spec (l : List (Bytes × Bytes)) : ∀ m : List (Bytes × Bytes), (m ++ l).Pairwise (fun a b => a.1 ≠ b.1) → m.Pairwise KeyLe →
    (l.foldl (fun m t => insertTag t m) m).Perm (m ++ l) ∧ (l.foldl (fun m t => insertTag t m) m).Pairwise KeyLe := by
  induction l with
  | nil => intro m _ hm; simpa using hm
  | cons t l ih =>
    intro m hk hm
    have hp : (m ++ t :: l).Perm (insertTag t m ++ l) := by
      have ht : ∀ x ∈ m, t.1 ≠ x.1 := fun x hx => ((List.pairwise_append.1 hk).2.2 x hx t (by simp)).symm
      exact List.perm_middle.trans ((insertTag_perm ht).symm.append_right l)
    have ht : ∀ x ∈ m, t.1 ≠ x.1 := fun x hx => ((List.pairwise_append.1 hk).2.2 x hx t (by simp)).symm
    obtain ⟨h1, h2⟩ := ih (insertTag t m) (hp.pairwise hk fun h => h.symm) (insertTag_sorted ht hm)
    exact ⟨h1.trans hp.symm, h2⟩

theorem labels_back {tags : List (Bytes × Bytes) → List (Bytes × Bytes)} (ht : Orders tags) {l : List (Bytes × Bytes)} (hk : l.Pairwise KeyLe) :
    labelsOf ((tags l).map (tagMsg (M := M))) = l := by
  have e : labelsOf ((tags l).map (tagMsg (M := M))) = (tags l).foldl (fun m t => insertTag t m) [] := by
    unfold labelsOf
    rw [List.foldl_map]
    congr 1
  rw [e]
  have hn : (tags l).Pairwise fun a b => a.1 ≠ b.1 := (ht _).symm.pairwise (hk.imp fun h => h.2) fun h => h.symm
  obtain ⟨h1, h2⟩ := collect_spec (tags l) [] hn List.Pairwise.nil
  refine List.Perm.eq_of_pairwise (le := KeyLe) ?_ h2 hk (h1.trans (ht l))
  intro a b _ _ h1 h2
  exact absurd (Proto.lexLe_antisymm _ _ h1.1 h2.1) h1.2

theorem metrics_back {enc : List Nat → Bytes} {dec : Bytes → Option (List Nat)} (hd : Codes enc dec) {tags : List (Bytes × Bytes) → List (Bytes × Bytes)} (ht : Orders tags) {c : Content}
    (hc : ∀ x ∈ c, Good utf8 x) : metricsOf dec (c.map (metricMsg (M := M) enc tags)) = some c := by
  induction c with
  | nil => rfl
  | cons x c ih =>
    have hx := hc x (by simp)
    rw [List.map_cons, metricsOf, ih fun y hy => hc y (by simp [hy])]
    have hlow : ∀ y ∈ strField 0 x.1.name ++ (tags x.1.labels).map (fun t => ((1, .msg (tagMsg t)) : Nat × V (MsgF M))), y.1 < 2 := by
      intro y hy
      rcases List.mem_append.1 hy with hy | hy
      · obtain ⟨rfl, _⟩ := strField_mem hy
        exact Nat.zero_lt_two
      · obtain ⟨t, _, rfl⟩ := List.mem_map.1 hy
        exact Nat.one_lt_two
    have hge : 2 ≤ (dataMsg (M := M) enc x.2).1 := by
      obtain ⟨i, m⟩ := x
      cases m with
      | counter n => exact Nat.le_refl _
      | hist hh =>
        cases hh with
        | inline vs => exact Nat.le_add_left 2 3
        | sketch vs => exact Nat.le_add_left 2 2
    have e1 : dataOf dec (metricMsg (M := M) enc tags x) = some x.2 := dataOf_back hd hx hlow
    have e2 : bytesOf (metricMsg (M := M) enc tags x) 0 = x.1.name := by
      unfold metricMsg
      rw [List.append_assoc]
      apply bytesOf_str
      intro y hy
      rcases List.mem_append.1 hy with hy | hy
      · obtain ⟨t, _, rfl⟩ := List.mem_map.1 hy
        exact Nat.one_ne_zero
      · rw [List.mem_singleton.1 hy]
        omega
    have e3 : msgsOf (metricMsg (M := M) enc tags x) 1 = (tags x.1.labels).map tagMsg := by
      unfold metricMsg
      rw [msgsOf_append, msgsOf_append, msgsOf_other, msgsOf_map, msgsOf_other]
      · simp
      · intro y hy
        rw [List.mem_singleton.1 hy]
        omega
      · intro y hy
        obtain ⟨rfl, _⟩ := strField_mem hy
        exact Nat.zero_ne_one
    rw [e1, e2, e3, labels_back ht hx.keys]

theorem content_back {enc : List Nat → Bytes} {dec : Bytes → Option (List Nat)} (hd : Codes enc dec) {tags : List (Bytes × Bytes) → List (Bytes × Bytes)} (ht : Orders tags) {c : Content}
    (hc : ∀ x ∈ c, Good utf8 x) (rest : List (Nat × V (MsgF (MsgF (MsgF M))))) (hr : ∀ y ∈ rest, y.1 ≠ 0) :
    contentOf dec ⟨(snapshotMsg (M := M) enc tags c).known ++ rest, []⟩ = some c := by
  unfold contentOf
  rw [msgsOf_append, msgsOf_other hr]
  have : msgsOf (⟨(snapshotMsg (M := M) enc tags c).known, []⟩ : MsgF (MsgF (MsgF (MsgF M)))) 0 = [⟨c.map (fun x => (0, .msg (metricMsg enc tags x))), []⟩] := rfl
  rw [this]
  simp only [List.append_nil, List.getLast?_singleton]
  rw [msgsOf_map]
  exact metrics_back hd ht hc

/-- A request with its snapshot, the period and the time if they are there. -/
def full (enc : List Nat → Bytes) (tags : List (Bytes × Bytes) → List (Bytes × Bytes)) (uuid : Bytes) (c : Content) (p : Option (Int × Option Int)) (sent : Option Int) :
    MsgF (MsgF (MsgF (MsgF (MsgF M)))) :=
  ⟨strField 0 uuid ++ [(1, .msg ⟨(snapshotMsg enc tags c).known ++ (p.toList.map fun x => (1, .msg (periodMsg (M := MsgF M) x.1 x.2))), []⟩)] ++
    sent.toList.map fun t => (2, .msg (timestampMsg t)), []⟩

theorem full_none (enc : List Nat → Bytes) (tags : List (Bytes × Bytes) → List (Bytes × Bytes)) (uuid : Bytes) (c : Content) :
    requestMsg (M := M) uuid (snapshotMsg enc tags c) = full enc tags uuid c none none := by
  unfold full
  rw [Option.toList_none, Option.toList_none, List.map_nil, List.map_nil, List.append_nil]
  rfl

theorem full_some (enc : List Nat → Bytes) (tags : List (Bytes × Bytes) → List (Bytes × Bytes)) (uuid : Bytes) (c : Content) (start : Int) (stop : Option Int) (sent : Int) :
    sentMsg (M := M) (requestMsg uuid (snapshotMsg enc tags c)) start stop sent = full enc tags uuid c (some (start, stop)) (some sent) := by
  unfold sentMsg requestMsg full
  have : (strField (M := MsgF (MsgF (MsgF (MsgF M)))) 0 uuid ++ [((1, .msg (snapshotMsg enc tags c)) : Nat × V (MsgF (MsgF (MsgF (MsgF M)))))]).filter (fun x => decide (x.1 ≠ 2)) =
      strField (M := MsgF (MsgF (MsgF (MsgF M)))) 0 uuid ++ [(1, .msg (snapshotMsg enc tags c))] := by
    rw [List.filter_eq_self]
    intro y hy
    rcases List.mem_append.1 hy with hy | hy
    · obtain ⟨rfl, _⟩ := strField_mem hy
      rfl
    · rw [List.mem_singleton.1 hy]
      rfl
  dsimp only
  rw [this, List.map_append]
  congr 3
  unfold strField
  split <;> rfl

theorem full_fits {enc : List Nat → Bytes} {tags : List (Bytes × Bytes) → List (Bytes × Bytes)} (ht : Orders tags) {uuid : Bytes} (hu : utf8 uuid = true) {c : Content}
    (hc : ∀ x ∈ c, Good utf8 x) (p : Option (Int × Option Int)) (hp : ∀ x, p = some x → Time.Valid x.1 ∧ ValidO x.2) (sent : Option Int) (hs : ValidO sent) :
    Fits schema utf8 (k + 5) ixStatsUploadRequest (full (M := Msg k) enc tags uuid c p sent) := request_fits hu (snapshot_fits ht hc p hp) sent hs

theorem stamp_back {l : List (Nat × V (MsgF M))} {r : List (Nat × V (MsgF M))} {i : Nat} (hl : ∀ y ∈ l, y.1 ≠ i) (hr : ∀ y ∈ r, y.1 ≠ i) {o : Option Int} (ho : ValidO o) :
    stampOf ⟨l ++ stampField i o ++ r, []⟩ i = some o := by
  unfold stampOf
  rw [msgsOf_append, msgsOf_append, msgsOf_other hl, msgsOf_other hr]
  cases o with
  | none => rfl
  | some t =>
    have : msgsOf (⟨stampField i (some t), []⟩ : MsgF (MsgF M)) i = [timestampMsg t] := by
      simp [msgsOf, stampField]
    rw [this]
    simp only [List.nil_append, List.append_nil, time_back (ho t rfl)]
    rfl

theorem full_snap (enc : List Nat → Bytes) (tags : List (Bytes × Bytes) → List (Bytes × Bytes)) (uuid : Bytes) (c : Content) (p : Option (Int × Option Int)) (sent : Option Int) :
    msgsOf (full (M := M) enc tags uuid c p sent) 1 = [⟨(snapshotMsg enc tags c).known ++ (p.toList.map fun x => (1, .msg (periodMsg (M := MsgF M) x.1 x.2))), []⟩] := by
  unfold full
  have h1 : ∀ y ∈ strField (M := MsgF (MsgF (MsgF (MsgF M)))) 0 uuid, y.1 ≠ 1 := by
    intro y hy
    obtain ⟨rfl, _⟩ := strField_mem hy
    exact Nat.zero_ne_one
  have h2 : ∀ y ∈ sent.toList.map (fun t => ((2, .msg (timestampMsg t)) : Nat × V (MsgF (MsgF (MsgF (MsgF M)))))), y.1 ≠ 1 := by
    intro y hy
    obtain ⟨t, _, rfl⟩ := List.mem_map.1 hy
    exact (by decide : (2 : Nat) ≠ 1)
  rw [msgsOf_append, msgsOf_append, msgsOf_other h1, msgsOf_other h2]
  rfl

theorem full_back {enc : List Nat → Bytes} {dec : Bytes → Option (List Nat)} (hd : Codes enc dec) {tags : List (Bytes × Bytes) → List (Bytes × Bytes)} (ht : Orders tags) (uuid : Bytes)
    {c : Content} (hc : ∀ x ∈ c, Good utf8 x) (p : Option (Int × Option Int)) (sent : Option Int) : ofRequest dec (full (M := M) enc tags uuid c p sent) = some (uuid, c) := by
  unfold ofRequest
  rw [full_snap]
  dsimp only
  rw [content_back hd ht hc]
  · have : bytesOf (full (M := M) enc tags uuid c p sent) 0 = uuid := by
      unfold full
      rw [List.append_assoc]
      apply bytesOf_str
      intro y hy
      rcases List.mem_append.1 hy with hy | hy
      · rw [List.mem_singleton.1 hy]
        exact Nat.one_ne_zero
      · obtain ⟨t, _, rfl⟩ := List.mem_map.1 hy
        exact (by decide : (2 : Nat) ≠ 0)
    rw [this]
    rfl
  · intro y hy
    obtain ⟨t, _, rfl⟩ := List.mem_map.1 hy
    exact Nat.one_ne_zero

/-! ### C105 -/

/-- **C105, the file.** A set of metrics that was written to its file to the end is read back with the identifier of the upload and exactly
these metrics, whatever the order of its hash maps; of a file that was cut anywhere nothing is read. -/
theorem C105_file {z : Bytes → Bytes} {u : Bytes → Option Bytes} (hz : Zlib z u) {enc : List Nat → Bytes} {dec : Bytes → Option (List Nat)} (hd : Codes enc dec)
    {tags : List (Bytes × Bytes) → List (Bytes × Bytes)} (ht : Orders tags) (uuid : Bytes) (hu : utf8 uuid = true) (c : Content) (hc : ∀ x ∈ c, Good utf8 x) (p : Bytes)
    (hp : p <+: writeSnapshot z enc tags uuid c) :
    (p = writeSnapshot z enc tags uuid c → ∃ m, readSnapshot u utf8 p = some m ∧ ofRequest dec m = some (uuid, c)) ∧
    (p ≠ writeSnapshot z enc tags uuid c → readSnapshot u utf8 p = none) := by
  have hfit : Fits schema utf8 6 ixStatsUploadRequest (requestMsg (M := Msg 1) uuid (snapshotMsg enc tags c)) := by
    rw [full_none]
    exact full_fits ht hu hc none nofun none nofun
  obtain ⟨h1, h2⟩ := C104_compressed hz utf8 6 ixStatsUploadRequest _ hfit p hp
  refine ⟨?_, h2⟩
  rintro rfl
  refine ⟨_, h1, ?_⟩
  show ofRequest dec (requestMsg (M := Msg 1) uuid (snapshotMsg enc tags c)) = _
  rw [full_none]
  exact full_back hd ht uuid hc none none

/-- **C105, the index.** The index that was written to the end is read back with the names of the files and their periods; of an index that
was cut nothing is read. -/
theorem C105_index {z : Bytes → Bytes} {u : Bytes → Option Bytes} (hz : Zlib z u) (l : List PFile) (hl : ∀ f ∈ l, utf8 f.name = true ∧ Time.Valid f.start ∧ ValidO f.stop) (p : Bytes)
    (hp : p <+: writeIndex z l) : (p = writeIndex z l → readIndex u utf8 p = some (l.map some)) ∧ (p ≠ writeIndex z l → readIndex u utf8 p = none) := by
  have e53 : schema.fields ixPendingAggregationIndex = [⟨1, .msg 54, .rep⟩] := by decide +kernel
  have hfit := repeated_fits (k := 2) (utf8 := utf8) (f := entryMsg (M := Msg 0)) (l := l) e53 fun f hf => entry_fits (k := 0) (hl f hf).1 (hl f hf).2.1 (hl f hf).2.2
  obtain ⟨h1, h2⟩ := C104_compressed hz utf8 3 ixPendingAggregationIndex _ hfit p hp
  unfold readIndex
  constructor
  · rintro rfl
    rw [show readCompressed u utf8 3 ixPendingAggregationIndex (writeIndex z l) = _ from h1]
    refine congrArg some ?_
    have := msgsOf_map (M := MsgF (MsgF (Msg 0))) 0 (entryMsg (M := Msg 0)) l
    show (msgsOf (⟨l.map fun f => (0, .msg (entryMsg (M := Msg 0) f)), []⟩ : MsgF (MsgF (MsgF (Msg 0)))) 0).map entryOf = _
    rw [this, List.map_map]
    refine List.map_congr_left fun f hf => ?_
    obtain ⟨_, hs, ho⟩ := hl f hf
    have h0 : ∀ y ∈ strField (M := MsgF (Msg 0)) 0 f.name, y.1 = 0 := fun y hy => by obtain ⟨rfl, _⟩ := strField_mem hy; rfl
    have hst : ∀ (i : Nat) (o : Option Int), ∀ y ∈ stampField (M := Msg 0) i o, y.1 = i := fun i o y hy => by obtain ⟨_, _, rfl⟩ := stamp_mem hy; rfl
    have e1 : stampOf (entryMsg (M := Msg 0) f) 1 = some (some f.start) :=
      stamp_back (fun y hy => by rw [h0 y hy]; decide) (fun y hy => by rw [hst _ _ y hy]; decide) (fun t ht => by cases ht; exact hs)
    have e2 : stampOf (entryMsg (M := Msg 0) f) 2 = some f.stop := by
      have := stamp_back (M := Msg 0) (l := strField 0 f.name ++ stampField 1 (some f.start)) (r := []) (i := 2)
        (fun y hy => by
          rcases List.mem_append.1 hy with hy | hy
          · rw [h0 y hy]; decide
          · rw [hst _ _ y hy]; decide) nofun ho
      rw [List.append_nil] at this
      exact this
    have e3 : bytesOf (entryMsg (M := Msg 0) f) 0 = f.name := by
      unfold entryMsg
      rw [List.append_assoc]
      apply bytesOf_str
      intro y hy
      rcases List.mem_append.1 hy with hy | hy <;> · rw [hst _ _ y hy]; decide
    show entryOf (entryMsg (M := Msg 0) f) = some f
    unfold entryOf
    rw [e1, e2, e3]
    rfl
  · intro hne
    rw [h2 hne]
    rfl

/-- An upload of good metrics. -/
structure Upload.Good (utf8 : Bytes → Bool) (x : Upload) : Prop where
  uuid : utf8 x.uuid = true
  content : ∀ y ∈ x.content, StatsBytes.Good utf8 y
  start : Time.Valid x.start
  stop : ValidO x.stop
  sent : Time.Valid x.sent

theorem upload_fits {enc : List Nat → Bytes} {tags : List (Bytes × Bytes) → List (Bytes × Bytes)} (ht : Orders tags) {x : Upload} (h : x.Good utf8) :
    Fits schema utf8 (k + 6) ixApiRequest (uploadMsg (M := Msg k) enc tags x) := by
  show FitsF (Fits schema utf8 (k + 5)) (HasKey (k + 5)) utf8 (schema.fields ixApiRequest) _
  have hss : (schema.fields ixApiRequest)[3]? = some ⟨6, .msg ixStatsUploadRequest, .one 0⟩ := by decide
  have hm : ∀ y ∈ (uploadMsg (M := Msg k) enc tags x).known, y = (3, .msg (full enc tags x.uuid x.content (some (x.start, x.stop)) (some x.sent))) := by
    intro y hy
    rw [← full_some]
    exact List.mem_singleton.1 hy
  refine ⟨?_, List.pairwise_singleton _ _, nofun, ?_⟩
  · intro y hy
    rw [hm y hy]
    exact ⟨_, hss, nofun, _, rfl, full_fits ht h.uuid h.content _ (fun p hp => by cases hp; exact ⟨h.start, h.stop⟩) _ (fun t ht => by cases ht; exact h.sent)⟩
  · intro y hy s hs hl
    rw [hm y hy, hss] at hs
    cases hs
    cases hl

theorem upload_back {enc : List Nat → Bytes} {dec : Bytes → Option (List Nat)} (hd : Codes enc dec) {tags : List (Bytes × Bytes) → List (Bytes × Bytes)} (ht : Orders tags) {x : Upload}
    (h : x.Good utf8) : uploadOf dec (uploadMsg (M := M) enc tags x) = some x := by
  unfold uploadOf uploadMsg apiMsg
  rw [full_some]
  have h3 : msgsOf (⟨[(3, .msg (full enc tags x.uuid x.content (some (x.start, x.stop)) (some x.sent)))], []⟩ : MsgF (MsgF (MsgF (MsgF (MsgF (MsgF M)))))) 3 =
      [full enc tags x.uuid x.content (some (x.start, x.stop)) (some x.sent)] := rfl
  rw [h3]
  dsimp only
  have hsent : stampOf (full (M := M) enc tags x.uuid x.content (some (x.start, x.stop)) (some x.sent)) 2 = some (some x.sent) := by
    have := stamp_back (M := MsgF (MsgF (MsgF M))) (l := strField 0 x.uuid ++ [(1, .msg ⟨(snapshotMsg enc tags x.content).known ++ [(1, .msg (periodMsg (M := MsgF M) x.start x.stop))], []⟩)])
      (r := []) (i := 2) (fun y hy => by
        rcases List.mem_append.1 hy with hy | hy
        · obtain ⟨rfl, _⟩ := strField_mem hy
          exact (by decide : (0 : Nat) ≠ 2)
        · rw [List.mem_singleton.1 hy]
          exact (by decide : (1 : Nat) ≠ 2)) nofun (o := some x.sent) (fun t ht => by cases ht; exact h.sent)
    rw [List.append_nil] at this
    exact this
  rw [full_back hd ht x.uuid h.content, full_snap, hsent]
  have hp : msgsOf (⟨(snapshotMsg enc tags x.content).known ++ ((some (x.start, x.stop)).toList.map fun x => (1, .msg (periodMsg (M := MsgF M) x.1 x.2))), []⟩ : MsgF (MsgF (MsgF (MsgF M)))) 1 =
      [periodMsg x.start x.stop] := rfl
  dsimp only
  rw [hp]
  dsimp only
  have hst : ∀ (i : Nat) (o : Option Int), ∀ y ∈ stampField (M := MsgF M) i o, y.1 = i := fun i o y hy => by obtain ⟨_, _, rfl⟩ := stamp_mem hy; rfl
  have e0 : stampOf (periodMsg (M := MsgF M) x.start x.stop) 0 = some (some x.start) :=
    stamp_back (M := MsgF M) (l := []) (r := stampField 1 x.stop) (i := 0) (o := some x.start) nofun (fun y hy => by rw [hst _ _ y hy]; decide) (fun t ht => by cases ht; exact h.start)
  have e1 : stampOf (periodMsg (M := MsgF M) x.start x.stop) 1 = some x.stop := by
    have := stamp_back (M := MsgF M) (l := stampField 0 (some x.start)) (r := []) (i := 1) (fun y hy => by rw [hst _ _ y hy]; decide) nofun h.stop
    rw [List.append_nil] at this
    exact this
  rw [e0, e1]

/-- **C105, the server.** Uploads of metrics sent one after the other over a stream reach the server with their identifiers, exactly their
metrics, their periods and the times they were sent, compressed or not and however the stream is cut. -/
theorem C105_server {St D : Type} (k : Nat) (utf8 : Bytes → Bool) {enc : List Nat → Bytes} {dec : Bytes → Option (List Nat)} (hd : Codes enc dec)
    {tags : List (Bytes × Bytes) → List (Bytes × Bytes)} (ht : Orders tags)
    (comp : St → Bytes → Option (St × Bytes)) (decomp : D → Bytes → Option (D × Bytes)) (R : St → D → Prop)
    (hR : ∀ s z b s' b', R s z → comp s b = some (s', b') → ∃ z', decomp z b' = some (z', b) ∧ R s' z')
    (e : Option St) (z : Option D) (he : ∀ s, e = some s → ∃ z', z = some z' ∧ R s z')
    (us : List Upload) (hu : ∀ x ∈ us, x.Good utf8)
    (hs : Short (wireCodec table utf8 (k + 6) ixApiRequest comp decomp) e (us.map (uploadMsg (M := Msg k) enc tags))) (chunks : List Bytes)
    (hc : chunks.flatten = (encodeAll (wireCodec table utf8 (k + 6) ixApiRequest comp decomp) e (us.map (uploadMsg (M := Msg k) enc tags))).2) :
    ∃ (got : List (Msg (k + 6))) (z' : Dec D), (Dec.init z).feed (wireCodec table utf8 (k + 6) ixApiRequest comp decomp) chunks = some (got, z') ∧
      got.map (fun m => uploadOf (M := Msg k) dec m) = us.map some := by
  obtain ⟨z', h, _⟩ := C103_grpc C103_tables.1 C103_tables.2 utf8 (k + 6) ixApiRequest comp decomp R hR e z he (us.map (uploadMsg (M := Msg k) enc tags))
    (by
      intro m hm
      obtain ⟨x, hx, rfl⟩ := List.mem_map.1 hm
      exact upload_fits ht (hu x hx)) hs chunks hc
  refine ⟨_, z', h, ?_⟩
  refine Eq.trans (List.map_map ..) ?_
  exact List.map_congr_left fun x hx => upload_back hd ht (hu x hx)

/-- A number of a message: the field, or zero if it is not there. -/
def HasNum (m : MsgF M) (i n : Nat) : Prop := (i, .num n) ∈ m.known ∨ n = 0 ∧ ∀ v, (i, v) ∉ m.known

theorem natOf_has {c : MsgF (Msg k)} (hc : Fits schema utf8 (k + 1) 55 c) {i n : Nat} (h : HasNum c i n) : natOf c i = n := by
  have e : schema.fields 55 = Wire.s55 := by decide +kernel
  have hc : FitsF (Fits schema utf8 k) (HasKey k) utf8 (schema.fields 55) c := hc
  rw [e] at hc
  have hlt : c.known.Pairwise fun x y => x.1 < y.1 := by
    refine hc.2.1.imp ?_
    rintro x y (⟨h, _⟩ | ⟨_, s, hs, hl⟩)
    · exact h
    · exfalso
      match hx : x.1 with
      | 0 => rw [hx] at hs; cases hs; simp at hl
      | 1 => rw [hx] at hs; cases hs; simp at hl
      | j + 2 => rw [hx] at hs; simp [Wire.s55] at hs
  unfold natOf
  rcases h with h | ⟨rfl, h⟩
  · rw [Files.find_unique hlt h]
  · rw [List.find?_eq_none.2]
    rintro ⟨j, v⟩ hx
    simp only [decide_eq_true_eq]
    rintro rfl
    exact h v hx

/-- **C105, empty files.** A file without metrics, with or without a snapshot, is a file with no metrics, not a panic; its identifier is kept. -/
theorem C105_empty {M : Type} (dec : Bytes → Option (List Nat)) (uuid : Bytes) (snaps : List (MsgF (MsgF (MsgF (MsgF M))))) (un : List (Nat × Wire.Raw))
    (h : ∀ s, snaps.head? = some s → ∀ x ∈ s.known, x.1 ≠ 0) :
    ofRequest dec ⟨(0, .bytes uuid) :: snaps.map (fun s => (1, .msg s)), un⟩ = some (uuid, []) := by
  have e : msgsOf (⟨(0, .bytes uuid) :: snaps.map (fun s => (1, .msg s)), un⟩ : MsgF (MsgF (MsgF (MsgF (MsgF M))))) 1 = snaps := by
    simp [msgsOf, List.filterMap_map, Function.comp_def]
  unfold ofRequest
  rw [e]
  cases snaps with
  | nil => rfl
  | cons s l =>
    have e0 : msgsOf s 0 = [] := by
      unfold msgsOf
      rw [List.filterMap_eq_nil_iff]
      intro x hx
      have := h s rfl x hx
      split <;> simp_all
    show (contentOf dec s).map _ = _
    unfold contentOf
    rw [e0]
    rfl

example : ofRequest (M := Nat) (fun _ => none) ⟨(0, .bytes [7]) :: [⟨[], []⟩].map (fun s => (1, .msg s)), []⟩ = some ([7], []) :=
  C105_empty _ _ [⟨[], []⟩] _ (by simp)

/-- **C105, older files.** Of a metric that an older version of the client wrote with its counter in the deprecated field of 32 bits, or with
both fields, the sum is read; a metric without data, or with the histogram that is no longer used, is a panic. -/
theorem C105_older (dec : Bytes → Option (List Nat)) (m : MsgF (MsgF (Msg k))) (hm : Fits schema utf8 (k + 2) 60 m) :
    (∀ c v w, (2, .msg c) ∈ m.known → HasNum (M := Msg k) c 1 v → HasNum (M := Msg k) c 0 w → v + w < 2 ^ 64 → dataOf dec m = some (.counter (v + w))) ∧
    ((∀ x ∈ m.known, x.1 ≠ 2 ∧ x.1 ≠ 4 ∧ x.1 ≠ 5) → ∀ l l', metricsOf dec (l ++ m :: l') = none) := by
  have e : schema.fields 60 = Wire.s60 := by decide +kernel
  have hf : FitsF (Fits schema utf8 (k + 1)) (HasKey (k + 1)) utf8 (schema.fields 60) m := hm
  rw [e] at hf
  constructor
  · intro c v w hc hv hw hlt
    obtain ⟨s, hs, _, ix, hix, hfit⟩ := hf.1 _ hc
    cases hs
    cases hix
    have hfind : m.known.find? (fun x => decide (2 ≤ x.1)) = some (2, .msg c) := by
      obtain ⟨a, b, hab⟩ := List.append_of_mem hc
      rw [hab, List.find?_append, List.find?_eq_none.2]
      · rfl
      · intro x hx
        have hb := (List.pairwise_append.1 (hab ▸ hf.2.1)).2.2 x hx _ (List.mem_cons_self ..)
        simp only [decide_eq_true_eq]
        rcases hb with ⟨h, _⟩ | ⟨h, s, hs, hl⟩
        · exact Nat.not_le.2 h
        · rw [h] at hs
          cases hs
          simp at hl
    unfold dataOf
    rw [hfind]
    show (if natOf c 1 + natOf c 0 < 2 ^ 64 then some (Metric.counter (natOf c 1 + natOf c 0)) else none) = _
    rw [natOf_has hfit hv, natOf_has hfit hw, if_pos hlt]
  · intro hno l l'
    have hd : dataOf dec m = none := by
      unfold dataOf
      cases hfi : m.known.find? (fun x => decide (2 ≤ x.1)) with
      | none => rfl
      | some x =>
        obtain ⟨h2, h4, h5⟩ := hno x (List.mem_of_find?_eq_some hfi)
        obtain ⟨i, v⟩ := x
        dsimp only at h2 h4 h5
        split
        · rename_i h; cases h; exact absurd rfl h2
        · rename_i h; cases h; exact absurd rfl h4
        · rename_i h; cases h; exact absurd rfl h5
        · rfl
    induction l with
    | nil => rw [List.nil_append, metricsOf, hd]
    | cons a l ih =>
      rw [List.cons_append, metricsOf, ih]
      cases dataOf dec a <;> rfl

/-! ### A case -/

/-- Two counters of the same name with other labels, an inline histogram, a sketch. -/
def exContent : Content :=
  [(⟨[99], [([97], [49]), ([98], [50])]⟩, .counter 300), (⟨[99], []⟩, .counter (2 ^ 64 - 1)), (⟨[104], []⟩, .hist (.inline [0, 2 ^ 63])), (⟨[115], []⟩, .hist (.sketch [7, 7]))]

def exEnc (l : List Nat) : Bytes := l
def exDec (b : Bytes) : Option (List Nat) := some b

theorem exContent_good : ∀ x ∈ exContent, Good (fun _ => true) x := by
  intro x hx
  simp only [exContent, List.mem_cons, List.not_mem_nil, or_false] at hx
  rcases hx with rfl | rfl | rfl | rfl
  · refine ⟨rfl, fun _ _ => ⟨rfl, rfl⟩, ?_, ?_, nofun⟩
    · simp only [List.pairwise_cons, List.mem_singleton, forall_eq, List.not_mem_nil, false_imp_iff, implies_true, List.Pairwise.nil, and_true]
      decide
    · rintro n hn; cases hn; decide
  · exact ⟨rfl, nofun, List.Pairwise.nil, by rintro n hn; cases hn; decide, nofun⟩
  · refine ⟨rfl, nofun, List.Pairwise.nil, nofun, ?_⟩
    rintro vs hv v hm
    cases hv
    simp only [List.mem_cons, List.not_mem_nil, or_false] at hm
    rcases hm with rfl | rfl <;> decide
  · exact ⟨rfl, nofun, List.Pairwise.nil, nofun, nofun⟩

example : Codes exEnc exDec := fun _ => rfl
example : Orders List.reverse := fun l => List.reverse_perm l

/-- The labels are written in the other order and read in theirs. -/
example : (readSnapshot Files.exU (fun _ => true) (writeSnapshot Files.exZ exEnc List.reverse [117] exContent)).bind (ofRequest exDec) = some ([117], exContent) := by
  decide +kernel

example : readSnapshot Files.exU (fun _ => true) ((writeSnapshot Files.exZ exEnc List.reverse [117] exContent).take 30) = none := by decide +kernel

example : readIndex Files.exU (fun _ => true) (writeIndex Files.exZ [⟨[97], 5000000000, some 7500000000⟩, ⟨[98], 0, none⟩]) =
    some [some ⟨[97], 5000000000, some 7500000000⟩, some ⟨[98], 0, none⟩] := by decide +kernel

example : uploadOf (M := Msg 0) exDec (uploadMsg exEnc List.reverse ⟨[117], exContent, 1, some 2, -1⟩) = some ⟨[117], exContent, 1, some 2, -1⟩ := by decide +kernel

/-- A counter of an older version. -/
example : dataOf (M := Msg 0) exDec ⟨[(0, .bytes [99]), (2, .msg ⟨[(0, .num 5), (1, .num 7)], []⟩)], []⟩ = some (.counter 12) ∧
    metricsOf (M := Msg 0) exDec [⟨[(0, .bytes [99])], []⟩] = none := by decide +kernel

end Verif.StatsBytes
