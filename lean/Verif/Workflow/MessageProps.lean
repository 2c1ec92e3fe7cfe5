import Verif.Workflow.Message
import Verif.Workflow.StopProps
import Verif.Match.TreeProps
import Mathlib.Data.List.Forall2
import Mathlib.Data.List.Basic

/-!
C116: a workflow message is run as it is written, or left out.

The statements compare the message with the configuration the engine runs, part by part.  What a log matcher means is
the meaning given to it in C29; sets and maps are described by their elements, numbers of logs by the logs.
-/
namespace Verif.Wf

/-! ### What a message says -/

/-- The last tag with this name has this value. -/
def LastTag (m : List MTag) (k : String) (v : TagValue) : Prop :=
  ∃ a b, m = a ++ ⟨k, some v⟩ :: b ∧ ∀ t ∈ b, t.name ≠ k

def TagsSay (m : List MTag) (l : List (String × TagValue)) : Prop :=
  l.Pairwise (fun a b => a.1 < b.1) ∧ ∀ k v, (k, v) ∈ l ↔ LastTag m k v

def SetSays (m l : List String) : Prop := l.Pairwise (· < ·) ∧ ∀ b, b ∈ l ↔ b ∈ m

/-- The number of logs is the least of those given; none if none is given. -/
def StreamSays (m : MStreaming) (s : StreamCfg) : Prop :=
  SetSays m.dests s.dests ∧
  ((s.max = none ∧ ∀ n, some n ∉ m.criteria) ∨
    ∃ n, s.max = some n ∧ some n ∈ m.criteria ∧ 0 < n ∧ ∀ k, some k ∈ m.criteria → n ≤ k)

def ActionSays : MAction → Action → Prop
  | .flush a, .flush b => b.id = a.id ∧ SetSays a.buffers b.buffers ∧
      ((a.streaming = none ∧ b.streaming = none) ∨
        ∃ s t, a.streaming = some s ∧ b.streaming = some t ∧ StreamSays s t)
  | .metric a, .metric b => b.id = a.id ∧ TagsSay a.tags b.tags ∧ a.increment = some b.increment ∧
      a.histogram = some b.histogram
  | .sankey a, .sankey b => b.id = a.id ∧ b.limit = a.limit ∧ TagsSay a.tags b.tags
  | .screenshot a, .screenshot b => b = a
  | _, _ => False

/-- The rule waits for the same number of logs, those that the matcher of the message accepts. -/
def RuleSays (x : Match.Ext) (num : Match.Tree Match.Leaf → Nat) : MRule → Rule → Prop
  | .logMatch c n, .logMatch k n' => n' = n ∧ ∃ t : Match.Tree Match.Leaf,
      Match.compile (Match.Leaf.new x) c = some t ∧ k = num t ∧
      ∀ log : Match.Log, log.matches x t = true ↔ Match.Sem (Match.BaseHolds x log) c
  | .timeout ms, .timeout ms' => ms' = ms
  | _, _ => False

/-- The sankey diagrams of a workflow, in the order of the message. -/
def MConfig.sankeys (m : MConfig) : List MSankey :=
  m.states.flatMap fun s => s.transitions.flatMap fun t => t.actions.filterMap fun a =>
    match a with | .sankey k => some k | _ => none

/-- The value is extracted as written, up to the limit of the last diagram with this name. -/
def ExtractionSays (m : MConfig) (e : PExtraction) (e' : Extraction) : Prop :=
  e'.sankey = e.sankey ∧ e.value = some e'.value ∧ e'.counts = e.counts ∧
  ∃ a k b, m.sankeys = a ++ k :: b ∧ k.id = e.sankey ∧ k.limit = e'.limit ∧ ∀ k' ∈ b, k'.id ≠ e.sankey

/-- The transition leads to the last state with the name given. -/
def TransitionSays (x : Match.Ext) (num : Match.Tree Match.Leaf → Nat) (m : MConfig) (t : MTransition)
    (t' : Transition) : Prop :=
  (∃ s, m.states[t'.target]? = some s ∧ s.id = t.target) ∧
  (∀ j s, t'.target < j → m.states[j]? = some s → s.id ≠ t.target) ∧
  RuleSays x num t.rule t'.rule ∧ List.Forall₂ ActionSays t.actions t'.actions ∧
  List.Forall₂ (ExtractionSays m) (t.extensions.filterMap fun e => e) t'.extractions

def Says (x : Match.Ext) (num : Match.Tree Match.Leaf → Nat) (m : MConfig) (c : Config) : Prop :=
  c.id = m.id ∧ m.exclusive = some c.exclusive ∧ c.duration = m.duration ∧ c.maxMatched = m.maxMatched ∧
  List.Forall₂ (fun s s' => s'.id = s.id ∧ List.Forall₂ (TransitionSays x num m) s.transitions s'.transitions)
    m.states c.states

/-! ### When it is complete -/

def ActionWhole : MAction → Prop
  | .missing => False
  | .flush a => ∀ s, a.streaming = some s → some 0 ∉ s.criteria
  | .metric a => (∀ t ∈ a.tags, t.value ≠ none) ∧ a.histogram ≠ none ∧ a.increment ≠ none
  | .sankey a => ∀ t ∈ a.tags, t.value ≠ none
  | .screenshot _ => True

def RuleWhole (x : Match.Ext) : MRule → Prop
  | .missing => False
  | .noType => False
  | .logMatch c _ => Match.ValidCfg (Match.BaseValid x) c
  | .timeout _ => True

def Whole (x : Match.Ext) (m : MConfig) : Prop :=
  m.states ≠ [] ∧ m.exclusive ≠ none ∧ m.duration ≠ some 0 ∧ m.maxMatched ≠ some 0 ∧
  ∀ s ∈ m.states, ∀ t ∈ s.transitions,
    (∃ s' ∈ m.states, s'.id = t.target) ∧ RuleWhole x t.rule ∧ (∀ a ∈ t.actions, ActionWhole a) ∧
    ∀ e, some e ∈ t.extensions → e.value ≠ none ∧ ∃ k ∈ m.sankeys, k.id = e.sankey

/-! ### Sets and maps -/

theorem mem_setInsert {s b : String} : ∀ {l : List String}, b ∈ setInsert s l ↔ b = s ∨ b ∈ l
  | [] => by simp [setInsert]
  | t :: l => by
    unfold setInsert
    split
    · simp
    · split
      · rename_i h; subst h; simp
      · simp only [List.mem_cons, mem_setInsert (l := l)]
        tauto

theorem setInsert_sorted {s : String} : ∀ {l : List String}, l.Pairwise (· < ·) → (setInsert s l).Pairwise (· < ·)
  | [], _ => by simp [setInsert]
  | t :: l, h => by
    obtain ⟨h1, h2⟩ := List.pairwise_cons.1 h
    unfold setInsert
    split
    · rename_i hst
      refine List.pairwise_cons.2 ⟨?_, h⟩
      intro b hb
      rcases List.mem_cons.1 hb with rfl | hb
      · exact hst
      · exact lt_trans hst (h1 b hb)
    · split
      · exact h
      · rename_i h3 h4
        refine List.pairwise_cons.2 ⟨?_, setInsert_sorted h2⟩
        intro b hb
        rcases mem_setInsert.1 hb with rfl | hb
        · exact lt_of_le_of_ne (not_lt.1 h3) (Ne.symm h4)
        · exact h1 b hb

theorem setOf_says (m : List String) : SetSays m (setOf m) := by
  have : ∀ (m a : List String), a.Pairwise (· < ·) → (m.foldl (fun a s => setInsert s a) a).Pairwise (· < ·) ∧
      ∀ b, b ∈ m.foldl (fun a s => setInsert s a) a ↔ b ∈ a ∨ b ∈ m := by
    intro m
    induction m with
    | nil => intro a h; exact ⟨h, by simp⟩
    | cons s m ih =>
      intro a h
      obtain ⟨h1, h2⟩ := ih (setInsert s a) (setInsert_sorted h)
      refine ⟨h1, fun b => ?_⟩
      rw [List.foldl_cons, h2, mem_setInsert, List.mem_cons]
      tauto
  obtain ⟨h1, h2⟩ := this m [] List.Pairwise.nil
  exact ⟨h1, fun b => by rw [setOf, h2]; simp⟩

theorem mem_tagInsert {k : String} {v : TagValue} {e : String × TagValue} : ∀ {l : List (String × TagValue)},
    l.Pairwise (fun a b => a.1 < b.1) → (e ∈ tagInsert k v l ↔ e = (k, v) ∨ (e ∈ l ∧ e.1 ≠ k))
  | [], _ => by simp [tagInsert]
  | t :: l, h => by
    obtain ⟨h1, h2⟩ := List.pairwise_cons.1 h
    unfold tagInsert
    split
    · rename_i hk
      have : ∀ e ∈ t :: l, e.1 ≠ k := by
        intro e he
        rcases List.mem_cons.1 he with rfl | he
        · exact ne_of_gt hk
        · exact ne_of_gt (lt_trans hk (h1 e he))
      constructor
      · intro he
        rcases List.mem_cons.1 he with rfl | he
        · exact Or.inl rfl
        · exact Or.inr ⟨he, this e he⟩
      · rintro (rfl | he)
        · exact List.mem_cons_self
        · exact List.mem_cons_of_mem _ he.1
    · split
      · rename_i hk
        have : ∀ e ∈ l, e.1 ≠ k := fun e he => by rw [hk]; exact ne_of_gt (h1 e he)
        constructor
        · intro he
          rcases List.mem_cons.1 he with rfl | he
          · exact Or.inl rfl
          · exact Or.inr ⟨List.mem_cons_of_mem _ he, this e he⟩
        · rintro (rfl | ⟨he, hn⟩)
          · exact List.mem_cons_self
          · rcases List.mem_cons.1 he with rfl | he
            · exact absurd hk.symm hn
            · exact List.mem_cons_of_mem _ he
      · rename_i h3 h4
        rw [List.mem_cons, mem_tagInsert h2, List.mem_cons]
        constructor
        · rintro (rfl | rfl | ⟨he, hn⟩)
          · exact Or.inr ⟨Or.inl rfl, Ne.symm h4⟩
          · exact Or.inl rfl
          · exact Or.inr ⟨Or.inr he, hn⟩
        · rintro (rfl | ⟨rfl | he, hn⟩)
          · exact Or.inr (Or.inl rfl)
          · exact Or.inl rfl
          · exact Or.inr (Or.inr ⟨he, hn⟩)

theorem tagInsert_sorted {k : String} {v : TagValue} : ∀ {l : List (String × TagValue)},
    l.Pairwise (fun a b => a.1 < b.1) → (tagInsert k v l).Pairwise (fun a b => a.1 < b.1)
  | [], _ => by simp [tagInsert]
  | t :: l, h => by
    obtain ⟨h1, h2⟩ := List.pairwise_cons.1 h
    unfold tagInsert
    split
    · rename_i hst
      refine List.pairwise_cons.2 ⟨?_, h⟩
      intro b hb
      rcases List.mem_cons.1 hb with rfl | hb
      · exact hst
      · exact lt_trans hst (h1 b hb)
    · split
      · rename_i hk
        exact List.pairwise_cons.2 ⟨fun b hb => by rw [show (k, v).1 = t.1 from hk]; exact h1 b hb, h2⟩
      · rename_i h3 h4
        refine List.pairwise_cons.2 ⟨?_, tagInsert_sorted h2⟩
        intro b hb
        rcases (mem_tagInsert h2).1 hb with rfl | ⟨hb, _⟩
        · exact lt_of_le_of_ne (not_lt.1 h3) (Ne.symm h4)
        · exact h1 b hb

theorem lastTag_cons {t : MTag} {m : List MTag} {k : String} {v : TagValue} :
    LastTag (t :: m) k v ↔ LastTag m k v ∨ (t = ⟨k, some v⟩ ∧ ∀ u ∈ m, u.name ≠ k) := by
  constructor
  · rintro ⟨a, b, h, hb⟩
    cases a with
    | nil =>
      simp only [List.nil_append, List.cons.injEq] at h
      obtain ⟨rfl, rfl⟩ := h
      exact Or.inr ⟨rfl, hb⟩
    | cons x a =>
      simp only [List.cons_append, List.cons.injEq] at h
      obtain ⟨rfl, rfl⟩ := h
      exact Or.inl ⟨a, b, rfl, hb⟩
  · rintro (⟨a, b, rfl, hb⟩ | ⟨rfl, hb⟩)
    · exact ⟨t :: a, b, rfl, hb⟩
    · exact ⟨[], m, rfl, hb⟩

theorem tagsOf_spec : ∀ (m : List MTag) (a : List (String × TagValue)), a.Pairwise (fun a b => a.1 < b.1) →
    ((∀ t ∈ m, t.value ≠ none) → ∃ l, tagsOf m a = some l) ∧
    ∀ l, tagsOf m a = some l → (∀ t ∈ m, t.value ≠ none) ∧ l.Pairwise (fun a b => a.1 < b.1) ∧
      ∀ k v, (k, v) ∈ l ↔ LastTag m k v ∨ ((k, v) ∈ a ∧ ∀ t ∈ m, t.name ≠ k)
  | [], a, ha => by
    refine ⟨fun _ => ⟨a, rfl⟩, ?_⟩
    intro l h
    cases h
    refine ⟨by simp, ha, fun k v => ?_⟩
    constructor
    · exact fun h => Or.inr ⟨h, by simp⟩
    · rintro (⟨a, b, h, _⟩ | h)
      · simp at h
      · exact h.1
  | t :: m, a, ha => by
    unfold tagsOf
    cases hv : t.value with
    | none =>
      refine ⟨fun h => absurd hv (h t List.mem_cons_self), ?_⟩
      intro l h
      cases h
    | some v =>
      dsimp only
      obtain ⟨h1, h2⟩ := tagsOf_spec m (tagInsert t.name v a) (tagInsert_sorted ha)
      refine ⟨fun h => h1 fun u hu => h u (List.mem_cons_of_mem _ hu), ?_⟩
      intro l hl
      obtain ⟨h3, h4, h5⟩ := h2 l hl
      refine ⟨?_, h4, fun k w => ?_⟩
      · intro u hu
        rcases List.mem_cons.1 hu with rfl | hu
        · rw [hv]; simp
        · exact h3 u hu
      · rw [h5, lastTag_cons, mem_tagInsert ha]
        have ht : t = ⟨t.name, some v⟩ := by cases t; cases hv; rfl
        constructor
        · rintro (h | ⟨h | ⟨h, hn⟩, hm⟩)
          · exact Or.inl (Or.inl h)
          · cases h; exact Or.inl (Or.inr ⟨ht, hm⟩)
          · refine Or.inr ⟨h, fun u hu => ?_⟩
            rcases List.mem_cons.1 hu with rfl | hu
            · exact Ne.symm hn
            · exact hm u hu
        · rintro ((h | ⟨h, hm⟩) | ⟨h, hm⟩)
          · exact Or.inl h
          · refine Or.inr ⟨Or.inl ?_, hm⟩
            rw [h] at hv ⊢
            cases hv
            rfl
          · exact Or.inr ⟨Or.inr ⟨h, Ne.symm (hm t List.mem_cons_self)⟩, fun u hu => hm u (List.mem_cons_of_mem _ hu)⟩

theorem tagsOf_whole {m : List MTag} (h : ∀ t ∈ m, t.value ≠ none) : ∃ l, tagsOf m [] = some l :=
  (tagsOf_spec m [] List.Pairwise.nil).1 h

theorem tagsOf_says {m : List MTag} {l : List (String × TagValue)} (h : tagsOf m [] = some l) :
    (∀ t ∈ m, t.value ≠ none) ∧ TagsSay m l := by
  obtain ⟨h1, h2, h3⟩ := (tagsOf_spec m [] List.Pairwise.nil).2 l h
  refine ⟨h1, h2, fun k v => ?_⟩
  rw [h3]
  simp

/-! ### Actions -/

theorem leastOf_spec : ∀ (l : List (Option Nat)),
    (leastOf l = none ∧ ∀ n, some n ∉ l) ∨ ∃ n, leastOf l = some n ∧ some n ∈ l ∧ ∀ k, some k ∈ l → n ≤ k
  | [] => Or.inl ⟨rfl, by simp⟩
  | none :: l => by
    rcases leastOf_spec l with ⟨h1, h2⟩ | ⟨n, h1, h2, h3⟩
    · exact Or.inl ⟨h1, fun n h => by simp at h; exact h2 n h⟩
    · exact Or.inr ⟨n, h1, List.mem_cons_of_mem _ h2, fun k h => by simp at h; exact h3 k h⟩
  | some m :: l => by
    unfold leastOf
    rcases leastOf_spec l with ⟨h1, h2⟩ | ⟨n, h1, h2, h3⟩
    · refine Or.inr ⟨m, by rw [h1], List.mem_cons_self, fun k h => ?_⟩
      simp only [List.mem_cons, Option.some.injEq] at h
      rcases h with rfl | h
      · exact le_refl _
      · exact absurd h (h2 k)
    · rw [h1]
      refine Or.inr ⟨_, rfl, ?_, fun k h => ?_⟩
      · split
        · exact List.mem_cons_of_mem _ h2
        · exact List.mem_cons_self
      · simp only [List.mem_cons, Option.some.injEq] at h
        rcases h with rfl | h
        · split <;> omega
        · have := h3 k h
          split <;> omega

theorem stream_spec (m : MStreaming) : (some 0 ∉ m.criteria → ∃ s, m.convert = some s) ∧
    ∀ s, m.convert = some s → some 0 ∉ m.criteria ∧ StreamSays m s := by
  unfold MStreaming.convert
  rcases leastOf_spec m.criteria with ⟨h1, h2⟩ | ⟨n, h1, h2, h3⟩
  · rw [h1]
    refine ⟨fun _ => ⟨_, rfl⟩, ?_⟩
    intro s h
    cases h
    exact ⟨h2 0, setOf_says _, Or.inl ⟨rfl, h2⟩⟩
  · rw [h1]
    dsimp only
    by_cases hn : n = 0
    · subst hn
      rw [if_pos rfl]
      exact ⟨fun h => absurd h2 h, fun s h => by cases h⟩
    · rw [if_neg hn]
      refine ⟨fun _ => ⟨_, rfl⟩, ?_⟩
      intro s h
      cases h
      refine ⟨fun h0 => hn (Nat.le_zero.1 (h3 0 h0)), setOf_says _, Or.inr ⟨n, rfl, h2, by omega, h3⟩⟩

theorem action_spec (m : MAction) : (ActionWhole m → ∃ a, m.convert = some a) ∧
    ∀ a, m.convert = some a → ActionWhole m ∧ ActionSays m a := by
  cases m with
  | missing => exact ⟨fun h => h.elim, fun a h => by cases h⟩
  | screenshot id => exact ⟨fun _ => ⟨_, rfl⟩, fun a h => by cases h; exact ⟨trivial, rfl⟩⟩
  | flush f =>
    simp only [MAction.convert]
    cases hs : f.streaming with
    | none =>
      refine ⟨fun _ => ⟨_, rfl⟩, fun a h => ?_⟩
      cases h
      exact ⟨fun s h => (by rw [hs] at h; cases h), rfl, setOf_says _, Or.inl ⟨hs, rfl⟩⟩
    | some s =>
      dsimp only
      obtain ⟨h1, h2⟩ := stream_spec s
      constructor
      · intro h
        obtain ⟨t, ht⟩ := h1 (h s hs)
        rw [ht]
        exact ⟨_, rfl⟩
      · intro a h
        cases ht : s.convert with
        | none => rw [ht] at h; cases h
        | some t =>
          rw [ht] at h
          cases h
          obtain ⟨h3, h4⟩ := h2 t ht
          refine ⟨fun s' hs' => ?_, rfl, setOf_says _, Or.inr ⟨s, t, hs, rfl, h4⟩⟩
          rw [hs] at hs'
          cases hs'
          exact h3
  | metric f =>
    simp only [MAction.convert, MMetric.convert]
    constructor
    · rintro ⟨h1, h2, h3⟩
      obtain ⟨l, hl⟩ := tagsOf_whole h1
      obtain ⟨h, hh⟩ := Option.ne_none_iff_exists'.1 h2
      obtain ⟨i, hi⟩ := Option.ne_none_iff_exists'.1 h3
      rw [hl, hh, hi]
      exact ⟨_, rfl⟩
    · intro a h
      cases hl : tagsOf f.tags [] with
      | none => rw [hl] at h; cases h
      | some l =>
        rw [hl] at h
        dsimp only at h
        cases hh : f.histogram with
        | none => rw [hh] at h; cases h
        | some b =>
          rw [hh] at h
          dsimp only at h
          cases hi : f.increment with
          | none => rw [hi] at h; cases h
          | some i =>
            rw [hi] at h
            cases h
            obtain ⟨h1, h2⟩ := tagsOf_says hl
            exact ⟨⟨h1, by rw [hh]; simp, by rw [hi]; simp⟩, rfl, h2, hi, hh⟩
  | sankey f =>
    simp only [MAction.convert, MSankey.convert]
    constructor
    · intro h1
      obtain ⟨l, hl⟩ := tagsOf_whole h1
      rw [hl]
      exact ⟨_, rfl⟩
    · intro a h
      cases hl : tagsOf f.tags [] with
      | none => rw [hl] at h; cases h
      | some l =>
        rw [hl] at h
        cases h
        obtain ⟨h1, h2⟩ := tagsOf_says hl
        exact ⟨h1, rfl, rfl, h2⟩

/-! ### Rules -/

theorem rule_spec (x : Match.Ext) (num : Match.Tree Match.Leaf → Nat) (m : MRule) :
    (RuleWhole x m → ∃ r, m.convert x num = some r) ∧
    ∀ r, m.convert x num = some r → RuleWhole x m ∧ RuleSays x num m r := by
  cases m with
  | missing => exact ⟨fun h => h.elim, fun a h => by cases h⟩
  | noType => exact ⟨fun h => h.elim, fun a h => by cases h⟩
  | timeout ms => exact ⟨fun _ => ⟨_, rfl⟩, fun a h => by cases h; exact ⟨trivial, rfl⟩⟩
  | logMatch c n =>
    have hv := Match.C29_rejected x c
    simp only [MRule.convert, RuleWhole]
    rw [← hv]
    cases hc : Match.compile (Match.Leaf.new x) c with
    | none => exact ⟨fun h => by simp at h, fun r h => by cases h⟩
    | some t =>
      refine ⟨fun _ => ⟨_, rfl⟩, fun r h => ?_⟩
      cases h
      exact ⟨rfl, rfl, t, hc, rfl, fun log => Match.C29_meaning x c t hc log⟩

/-! ### Lists -/

theorem mapOpt_forall {α β : Type} {f : α → Option β} : ∀ {l : List α} {r : List β},
    mapOpt f l = some r ↔ List.Forall₂ (fun a b => f a = some b) l r
  | [], r => by
    simp only [mapOpt, Option.some.injEq, List.forall₂_nil_left_iff]
    exact eq_comm
  | a :: l, r => by
    unfold mapOpt
    constructor
    · intro h
      split at h
      · rename_i b r' hb hr
        cases h
        exact List.Forall₂.cons hb (mapOpt_forall.1 hr)
      · cases h
    · intro h
      cases h with
      | cons hb hr => rw [hb, mapOpt_forall.2 hr]

theorem mapOpt_some {α β : Type} {f : α → Option β} : ∀ {l : List α}, (∀ a ∈ l, ∃ b, f a = some b) →
    ∃ r, mapOpt f l = some r
  | [], _ => ⟨[], rfl⟩
  | a :: l, h => by
    obtain ⟨b, hb⟩ := h a List.mem_cons_self
    obtain ⟨r, hr⟩ := mapOpt_some fun a ha => h a (List.mem_cons_of_mem _ ha)
    exact ⟨b :: r, by unfold mapOpt; rw [hb, hr]⟩

theorem forall₂_left {α β : Type} {R : α → β → Prop} {l : List α} {r : List β} (h : List.Forall₂ R l r) :
    ∀ a ∈ l, ∃ b ∈ r, R a b := by
  induction h with
  | nil => intro a ha; cases ha
  | cons hab _ ih =>
    intro a ha
    rcases List.mem_cons.1 ha with rfl | ha
    · exact ⟨_, List.mem_cons_self, hab⟩
    · obtain ⟨b, hb, h⟩ := ih a ha
      exact ⟨b, List.mem_cons_of_mem _ hb, h⟩

theorem forall₂_imp_mem {α β : Type} {R S : α → β → Prop} {l : List α} {r : List β} (h : List.Forall₂ R l r)
    (hi : ∀ a ∈ l, ∀ b, R a b → S a b) : List.Forall₂ S l r := by
  induction h with
  | nil => exact List.Forall₂.nil
  | cons hab _ ih =>
    exact List.Forall₂.cons (hi _ List.mem_cons_self _ hab) (ih fun a ha => hi a (List.mem_cons_of_mem _ ha))

theorem lookup_reverse (k : String) (v : Nat) : ∀ (l : List (String × Nat)),
    lookup k l.reverse = some v ↔ ∃ a b, l = a ++ (k, v) :: b ∧ ∀ e ∈ b, e.1 ≠ k := by
  have happ : ∀ (l r : List (String × Nat)), lookup k (l ++ r) = match lookup k l with
      | some w => some w | none => lookup k r := by
    intro l r
    induction l with
    | nil => rfl
    | cons e l ih =>
      simp only [List.cons_append, lookup]
      split
      · rfl
      · exact ih
  have hnone : ∀ (l : List (String × Nat)), lookup k l = none ↔ ∀ e ∈ l, e.1 ≠ k := by
    intro l
    induction l with
    | nil => simp [lookup]
    | cons e l ih =>
      unfold lookup
      split
      · rename_i h; simp [h]
      · rename_i h; simp [ih, h]
  intro l
  induction l with
  | nil => simp [lookup]
  | cons e l ih =>
    rw [List.reverse_cons, happ]
    cases hl : lookup k l.reverse with
    | some w =>
      rw [hl] at ih
      dsimp only
      constructor
      · intro h
        obtain ⟨a, b, h, hb⟩ := ih.1 h
        exact ⟨e :: a, b, by rw [h]; rfl, hb⟩
      · rintro ⟨a, b, h, hb⟩
        cases a with
        | nil =>
          simp only [List.nil_append, List.cons.injEq] at h
          obtain ⟨rfl, rfl⟩ := h
          have : lookup k l.reverse = none := (hnone _).2 fun e he => hb e (List.mem_reverse.1 he)
          rw [this] at hl
          cases hl
        | cons y a =>
          simp only [List.cons_append, List.cons.injEq] at h
          exact ih.2 ⟨a, b, h.2, hb⟩
    | none =>
      rw [hl] at ih
      have hno := (hnone _).1 hl
      dsimp only
      constructor
      · intro h
        unfold lookup at h
        split at h
        · rename_i hk
          cases h
          refine ⟨[], l, ?_, fun e he => hno e (List.mem_reverse.2 he)⟩
          rw [← hk]
          rfl
        · cases h
      · rintro ⟨a, b, h, hb⟩
        cases a with
        | nil =>
          simp only [List.nil_append, List.cons.injEq] at h
          obtain ⟨rfl, rfl⟩ := h
          simp [lookup]
        | cons y a =>
          simp only [List.cons_append, List.cons.injEq] at h
          exact absurd (ih.2 ⟨a, b, h.2, hb⟩) (by simp)

/-! ### Limits -/

theorem limits_eq (x : Match.Ext) (num : Match.Tree Match.Leaf → Nat) (m : MConfig)
    (h : ∀ s ∈ m.states, ∀ t ∈ s.transitions, ∀ a ∈ t.actions, ∃ b, a.convert = some b) :
    (m.parts x num).limits = (m.sankeys.map fun k => (k.id, k.limit)).reverse := by
  unfold PConfig.limits MConfig.sankeys MConfig.parts
  congr 1
  dsimp only
  rw [List.map_map, ← List.flatMap_def, List.map_flatMap]
  apply List.flatMap_congr
  intro s hs
  simp only [Function.comp]
  rw [List.map_map, ← List.flatMap_def, List.map_flatMap]
  apply List.flatMap_congr
  intro t ht
  simp only [Function.comp, PTransition.limits, MTransition.parts]
  rw [List.filterMap_map, List.map_filterMap]
  apply List.filterMap_congr
  intro a ha
  obtain ⟨b, hb⟩ := h s hs t ht a ha
  simp only [Function.comp, hb]
  cases a with
  | missing => cases hb
  | screenshot i => cases hb; rfl
  | flush f => 
    obtain ⟨_, h2⟩ := (action_spec _).2 b hb
    cases b <;> first | rfl | exact h2.elim
  | metric f =>
    obtain ⟨_, h2⟩ := (action_spec _).2 b hb
    cases b <;> first | rfl | exact h2.elim
  | sankey f =>
    obtain ⟨_, h2⟩ := (action_spec _).2 b hb
    cases b with
    | sankey g => simp only [Option.map_some, h2.1, h2.2.1]
    | flush g => exact h2.elim
    | metric g => exact h2.elim
    | screenshot g => exact h2.elim

theorem map_forall₂ {α β γ : Type} {f : α → γ} {R : γ → β → Prop} : ∀ {l : List α} {r : List β},
    List.Forall₂ R (l.map f) r → List.Forall₂ (fun a b => R (f a) b) l r
  | [], r, h => by cases h; exact List.Forall₂.nil
  | a :: l, r, h => by
    cases h with
    | cons h1 h2 => exact List.Forall₂.cons h1 (map_forall₂ h2)

theorem lastIdx_last {k : String} : ∀ {l : List String} {i : Nat}, lastIdx k l = some i →
    ∀ j, i < j → l[j]? ≠ some k
  | [], i, h => by cases h
  | e :: l, i, h => by
    unfold lastIdx at h
    cases hl : lastIdx k l with
    | some n =>
      rw [hl] at h
      cases h
      intro j hj
      cases j with
      | zero => omega
      | succ j => simpa using lastIdx_last hl j (by omega)
    | none =>
      have hnot : k ∉ l := by
        clear h
        induction l with
        | nil => simp
        | cons x l ih =>
          unfold lastIdx at hl
          cases hx : lastIdx k l with
          | some n => rw [hx] at hl; cases hl
          | none =>
            rw [hx] at hl
            dsimp only at hl
            split at hl
            · cases hl
            · rename_i hne
              simp only [List.mem_cons, not_or]
              exact ⟨Ne.symm hne, ih hx⟩
      rw [hl] at h
      dsimp only at h
      split at h
      · cases h
        intro j hj hjk
        cases j with
        | zero => omega
        | succ j =>
          rw [List.getElem?_cons_succ] at hjk
          exact hnot (List.mem_of_getElem? hjk)
      · cases h

theorem lastIdx_some {k : String} : ∀ {l : List String}, k ∈ l → ∃ i, lastIdx k l = some i
  | e :: l, h => by
    unfold lastIdx
    cases hl : lastIdx k l with
    | some n => exact ⟨_, rfl⟩
    | none =>
      rcases List.mem_cons.1 h with rfl | h
      · exact ⟨0, by simp⟩
      · obtain ⟨i, hi⟩ := lastIdx_some h
        rw [hl] at hi
        cases hi

theorem positive_spec (o : Option Nat) : (o ≠ some 0 → positive o = some o) ∧
    ∀ r, positive o = some r → o ≠ some 0 ∧ r = o := by
  cases o with
  | none => exact ⟨fun _ => rfl, fun r h => by cases h; exact ⟨by simp, rfl⟩⟩
  | some n =>
    by_cases hn : n > 0
    · have hp : positive (some n) = some (some n) := by simp [positive, hn]
      rw [hp]
      exact ⟨fun _ => rfl, fun r h => by cases h; exact ⟨fun h => by cases h; omega, rfl⟩⟩
    · have : n = 0 := by omega
      subst this
      exact ⟨fun h => absurd rfl h, fun r h => by cases h⟩

theorem parts_ids (x : Match.Ext) (num : Match.Tree Match.Leaf → Nat) (m : MConfig) :
    (m.parts x num).states.map (·.id) = m.states.map (·.id) := by
  simp [MConfig.parts]

/-! ### Whole messages are converted, and only these -/

theorem transition_some (x : Match.Ext) (num : Match.Tree Match.Leaf → Nat) (m : MConfig) (hw : Whole x m)
    {s : MState} (hs : s ∈ m.states) {t : MTransition} (ht : t ∈ s.transitions) :
    ∃ r, (m.parts x num).transition (t.parts x num) = some r := by
  have hl := limits_eq x num m fun s hs t ht a ha =>
    (action_spec a).1 ((hw.2.2.2.2 s hs t ht).2.2.1 a ha)
  obtain ⟨⟨s', hs', hid⟩, hr, ha, he⟩ := hw.2.2.2.2 s hs t ht
  obtain ⟨i, hi⟩ := lastIdx_some (k := t.target) (l := m.states.map (·.id)) (List.mem_map.2 ⟨s', hs', hid⟩)
  obtain ⟨r, hr⟩ := (rule_spec x num t.rule).1 hr
  obtain ⟨as, has⟩ := mapOpt_some (f := fun a : Option Action => a) (l := t.actions.map (·.convert)) (by
    intro o ho
    obtain ⟨a, haa, rfl⟩ := List.mem_map.1 ho
    exact (action_spec a).1 (ha a haa))
  obtain ⟨es, hes⟩ := mapOpt_some (f := (m.parts x num).extraction) (l := t.extensions.filterMap fun e => e) (by
    intro e hee
    obtain ⟨o, ho, hoe⟩ := List.mem_filterMap.1 hee
    subst hoe
    obtain ⟨hv, k, hk, hki⟩ := he e ho
    obtain ⟨v, hv⟩ := Option.ne_none_iff_exists'.1 hv
    unfold PConfig.extraction
    rw [hl, hv]
    cases hlk : lookup e.sankey (m.sankeys.map fun k => (k.id, k.limit)).reverse with
    | some n => exact ⟨_, rfl⟩
    | none =>
      exfalso
      have : ∀ (l : List (String × Nat)), lookup e.sankey l = none → ∀ p ∈ l, p.1 ≠ e.sankey := by
        intro l
        induction l with
        | nil => simp
        | cons p l ih =>
          intro h
          unfold lookup at h
          split at h
          · cases h
          · rename_i hp
            intro q hq
            rcases List.mem_cons.1 hq with rfl | hq
            · exact hp
            · exact ih h q hq
      exact this _ hlk (k.id, k.limit) (List.mem_reverse.2 (List.mem_map.2 ⟨k, hk, rfl⟩)) hki)
  refine ⟨⟨i, r, as, es⟩, ?_⟩
  unfold PConfig.transition PConfig.index
  rw [parts_ids]
  simp only [MTransition.parts, hi, hr, has, hes]

theorem transition_actions (x : Match.Ext) (num : Match.Tree Match.Leaf → Nat) {p : PConfig} {t : MTransition}
    {r : Transition} (h : p.transition (t.parts x num) = some r) : ∀ a ∈ t.actions, ∃ b, a.convert = some b := by
  unfold PConfig.transition at h
  split at h
  · rename_i i r a e h1 h2 h3 h4
    intro b hb
    obtain ⟨c, _, hc⟩ := forall₂_left (map_forall₂ (mapOpt_forall.1 h3)) b hb
    exact ⟨c, hc⟩
  · cases h

/-- What a converted transition comes from, and what it is. -/
theorem transition_says (x : Match.Ext) (num : Match.Tree Match.Leaf → Nat) (m : MConfig)
    (hl : (m.parts x num).limits = (m.sankeys.map fun k => (k.id, k.limit)).reverse)
    {t : MTransition} {r : Transition} (h : (m.parts x num).transition (t.parts x num) = some r) :
    ((∃ s' ∈ m.states, s'.id = t.target) ∧ RuleWhole x t.rule ∧ (∀ a ∈ t.actions, ActionWhole a) ∧
      ∀ e, some e ∈ t.extensions → e.value ≠ none ∧ ∃ k ∈ m.sankeys, k.id = e.sankey) ∧
    TransitionSays x num m t r := by
  unfold PConfig.transition at h
  split at h
  · rename_i i ru a e h1 h2 h3 h4
    cases h
    have h3 := map_forall₂ (mapOpt_forall.1 h3)
    have h4 := mapOpt_forall.1 h4
    obtain ⟨hr1, hr2⟩ := (rule_spec x num t.rule).2 ru h2
    unfold PConfig.index at h1
    rw [parts_ids] at h1
    have hg := lastIdx_get h1
    have hla := lastIdx_last h1
    rw [List.getElem?_map] at hg
    obtain ⟨s', hs', hid⟩ := Option.map_eq_some_iff.1 hg
    have hext : ∀ e ∈ t.extensions.filterMap (fun e => e), ∀ e', (m.parts x num).extraction e = some e' →
        ExtractionSays m e e' := by
      intro e _ e' hee
      unfold PConfig.extraction at hee
      split at hee
      · rename_i n v g1 g2
        cases hee
        rw [hl, lookup_reverse] at g1
        obtain ⟨a, b, g1, hb⟩ := g1
        obtain ⟨a', r', hm, _, hr'⟩ := List.map_eq_append_iff.1 g1
        obtain ⟨k, b', hk, hkk, hb'⟩ := List.map_eq_cons_iff.1 hr'
        subst hk hb'
        refine ⟨rfl, g2, rfl, a', k, b', hm, congrArg Prod.fst hkk, congrArg Prod.snd hkk, fun k' hk' => ?_⟩
        exact hb (k'.id, k'.limit) (List.mem_map.2 ⟨k', hk', rfl⟩)
      · cases hee
    have h4 : List.Forall₂ (ExtractionSays m) (t.extensions.filterMap fun e => e) e := forall₂_imp_mem h4 hext
    refine ⟨⟨⟨s', List.mem_of_getElem? hs', hid⟩, hr1, ?_, ?_⟩, ⟨s', hs', hid⟩, ?_, hr2, ?_, h4⟩
    · intro b hb
      obtain ⟨c, _, hc⟩ := forall₂_left h3 b hb
      exact ((action_spec b).2 c hc).1
    · intro ex hex
      obtain ⟨e', _, _, hv, _, a', k, b', hm, hk, _⟩ := forall₂_left h4 ex
        (List.mem_filterMap.2 ⟨some ex, hex, rfl⟩)
      refine ⟨by rw [hv]; simp, k, by rw [hm]; simp, hk⟩
    · intro j s hj hsj hsid
      apply hla j hj
      rw [List.getElem?_map, hsj, Option.map_some, hsid]
      rfl
    · exact forall₂_imp_mem h3 fun a _ b hb => ((action_spec a).2 b hb).2
  · cases h

theorem state_some {p : PConfig} {s : PState} {r : State} (h : p.state s = some r) :
    r.id = s.id ∧ List.Forall₂ (fun a b => p.transition a = some b) s.transitions r.transitions := by
  unfold PConfig.state at h
  split at h
  · rename_i t ht
    cases h
    exact ⟨rfl, mapOpt_forall.1 ht⟩
  · cases h

/-- C116.  The configuration a message is converted to is what the message says. -/
theorem C116_written (x : Match.Ext) (num : Match.Tree Match.Leaf → Nat) (m : MConfig) (c : Config)
    (h : m.convert x num = some c) : Whole x m ∧ Says x num m c := by
  unfold MConfig.convert Config.new at h
  split at h
  · cases h
  · rename_i hne
    split at h
    · rename_i ss ex d mm h1 h2 h3 h4
      cases h
      have h1 := map_forall₂ (mapOpt_forall.1 h1)
      have h1' : List.Forall₂ (fun (s : MState) (s' : State) => s'.id = s.id ∧
          List.Forall₂ (fun t r => (m.parts x num).transition (t.parts x num) = some r) s.transitions s'.transitions)
          m.states ss := by
        refine forall₂_imp_mem h1 fun s _ s' hs => ?_
        obtain ⟨g1, g2⟩ := state_some hs
        exact ⟨g1, map_forall₂ g2⟩
      have hl := limits_eq x num m fun s hs t ht a ha => by
        obtain ⟨s', _, _, g2⟩ := forall₂_left h1' s hs
        obtain ⟨r, _, hr⟩ := forall₂_left g2 t ht
        exact transition_actions x num hr a ha
      obtain ⟨d1, rfl⟩ := (positive_spec _).2 d h3
      obtain ⟨m1, rfl⟩ := (positive_spec _).2 mm h4
      refine ⟨⟨?_, ?_, d1, m1, ?_⟩, rfl, h2, rfl, rfl, ?_⟩
      · intro he
        apply hne
        simp [MConfig.parts, he]
      · have : m.exclusive = some ex := h2
        rw [this]
        simp
      · intro s hs t ht
        obtain ⟨s', _, _, g2⟩ := forall₂_left h1' s hs
        obtain ⟨r, _, hr⟩ := forall₂_left g2 t ht
        exact (transition_says x num m hl hr).1
      · exact forall₂_imp_mem h1' fun s _ s' hs =>
          ⟨hs.1, forall₂_imp_mem hs.2 fun t _ r hr => (transition_says x num m hl hr).2⟩
    · cases h

/-- C116.  A message is converted exactly when it is complete: it has a state and an execution type, its limits are not
zero, its transitions lead to states of it, have a rule (with a valid matcher, C29), complete actions and complete
extractions for diagrams it has. -/
theorem C116_accepted (x : Match.Ext) (num : Match.Tree Match.Leaf → Nat) (m : MConfig) :
    (∃ c, m.convert x num = some c) ↔ Whole x m := by
  constructor
  · rintro ⟨c, h⟩
    exact (C116_written x num m c h).1
  · intro hw
    obtain ⟨ss, hss⟩ := mapOpt_some (f := (m.parts x num).state) (l := (m.parts x num).states) (by
      intro ps hps
      obtain ⟨s, hs, rfl⟩ := List.mem_map.1 hps
      obtain ⟨ts, hts⟩ := mapOpt_some (f := (m.parts x num).transition) (l := s.transitions.map (·.parts x num)) (by
        intro pt hpt
        obtain ⟨t, ht, rfl⟩ := List.mem_map.1 hpt
        exact transition_some x num m hw hs ht)
      exact ⟨⟨s.id, ts⟩, by unfold PConfig.state; rw [hts]⟩)
    obtain ⟨h1, h2, h3, h4, _⟩ := hw
    obtain ⟨ex, hex⟩ := Option.ne_none_iff_exists'.1 h2
    have hd : positive (m.parts x num).duration = some m.duration := (positive_spec _).1 h3
    have hm : positive (m.parts x num).maxMatched = some m.maxMatched := (positive_spec _).1 h4
    have hx : (m.parts x num).exclusive = some ex := hex
    have hne : (m.parts x num).states.isEmpty = false := by
      simp [MConfig.parts, h1]
    unfold MConfig.convert Config.new
    rw [hne, hss, hx, hd, hm]
    exact ⟨_, rfl⟩


open Classical in
/-- C116.  Of the workflows of a configuration the complete ones are taken, in their order, each as it says; those that
are not complete take nothing from the others. -/
theorem C116_others (x : Match.Ext) (num : Match.Tree Match.Leaf → Nat) (l : List MConfig) :
    List.Forall₂ (Says x num) (l.filter fun m => decide (Whole x m)) (workflowsNew x num l) := by
  unfold workflowsNew configsNew
  induction l with
  | nil => exact List.Forall₂.nil
  | cons m l ih =>
    rw [List.map_cons, List.filterMap_cons]
    have h1 := C116_accepted x num m
    cases hc : Config.new (m.parts x num) with
    | none =>
      have : ¬ Whole x m := by
        rw [← h1]
        rintro ⟨c, h⟩
        unfold MConfig.convert at h
        rw [hc] at h
        cases h
      rw [List.filter_cons_of_neg (by simpa using this)]
      exact ih
    | some c =>
      obtain ⟨h2, h3⟩ := C116_written x num m c hc
      rw [List.filter_cons_of_pos (by simpa using h2)]
      exact List.Forall₂.cons h3 ih

/-! ### The same message in another order -/

theorem SetSays.eq {m m' l l' : List String} (h : SetSays m l) (h' : SetSays m' l') (hm : ∀ b, b ∈ m ↔ b ∈ m') :
    l = l' := by
  refine List.Perm.eq_of_pairwise (le := (· < ·)) ?_ h.1 h'.1 ?_
  · intro a b _ _ hab hba
    exact absurd (lt_trans hab hba) (lt_irrefl _)
  · refine (List.perm_ext_iff_of_nodup ?_ ?_).2 fun b => by rw [h.2, h'.2, hm]
    · exact h.1.imp fun hab => ne_of_lt hab
    · exact h'.1.imp fun hab => ne_of_lt hab

theorem TagsSay.eq {m m' : List MTag} {l l' : List (String × TagValue)} (h : TagsSay m l) (h' : TagsSay m' l')
    (hm : ∀ k v, LastTag m k v ↔ LastTag m' k v) : l = l' := by
  refine List.Perm.eq_of_pairwise (le := fun a b => a.1 < b.1) ?_ h.1 h'.1 ?_
  · intro a b _ _ hab hba
    exact absurd (lt_trans hab hba) (lt_irrefl _)
  · refine (List.perm_ext_iff_of_nodup ?_ ?_).2 fun b => by rw [h.2 b.1 b.2, h'.2 b.1 b.2, hm]
    · exact h.1.imp fun hab he => absurd hab (by rw [he]; exact lt_irrefl _)
    · exact h'.1.imp fun hab he => absurd hab (by rw [he]; exact lt_irrefl _)

/-- C116.  Metrics that give the same tags in another order, or some of them twice, are the same metric; flushes of the
same buffers are the same flush. -/
theorem C116_order (id : String) (tags tags' : List MTag) (hist : Bool) (i : Increment) (b b' : List String)
    (a a' : Action) (ht : ∀ k v, LastTag tags k v ↔ LastTag tags' k v) (hb : ∀ s, s ∈ b ↔ s ∈ b') :
    ((MAction.metric ⟨id, tags, some hist, some i⟩).convert = some a →
      (MAction.metric ⟨id, tags', some hist, some i⟩).convert = some a' → a = a') ∧
    ((MAction.flush ⟨id, b, none⟩).convert = some a → (MAction.flush ⟨id, b', none⟩).convert = some a' → a = a') := by
  constructor
  · intro h h'
    have h1 := ((action_spec _).2 a h).2
    have h2 := ((action_spec _).2 a' h').2
    cases a <;> cases a' <;> try exact h1.elim
    all_goals try exact h2.elim
    rename_i f g
    obtain ⟨f1, f2, f3, f4⟩ := h1
    obtain ⟨g1, g2, g3, g4⟩ := h2
    have := f2.eq g2 ht
    cases f
    cases g
    dsimp only at *
    cases f3
    cases f4
    cases g3
    cases g4
    subst f1 g1 this
    rfl
  · intro h h'
    have h1 := ((action_spec _).2 a h).2
    have h2 := ((action_spec _).2 a' h').2
    cases a <;> cases a' <;> try exact h1.elim
    all_goals try exact h2.elim
    rename_i f g
    obtain ⟨f1, f2, f3⟩ := h1
    obtain ⟨g1, g2, g3⟩ := h2
    have := f2.eq g2 hb
    cases f
    cases g
    dsimp only at *
    rcases f3 with ⟨_, f3⟩ | ⟨s, t, f3, _⟩
    · rcases g3 with ⟨_, g3⟩ | ⟨s, t, g3, _⟩
      · subst f1 g1 this f3 g3
        rfl
      · cases g3
    · cases f3

/-! ### What a running workflow does -/

/-- The matchers of a message, compiled. -/
def MConfig.trees (x : Match.Ext) (m : MConfig) : List (Match.Tree Match.Leaf) :=
  m.states.flatMap fun s => s.transitions.flatMap fun t =>
    match t.rule with | .logMatch c _ => (Match.compile (Match.Leaf.new x) c).toList | _ => []

/-- A log of the workflow model carries the numbers of exactly those matchers that accept the log it stands for. -/
def Views (x : Match.Ext) (num : Match.Tree Match.Leaf → Nat) (trees : List (Match.Tree Match.Leaf))
    (view : Match.Log → Log) : Prop :=
  ∀ log, ∀ t ∈ trees, (num t ∈ (view log).hits ↔ log.matches x t = true)

/-- There are such numbers and such logs. -/
theorem views_exist (x : Match.Ext) (trees : List (Match.Tree Match.Leaf)) (session : Match.Log → String)
    (time : Match.Log → Nat) : ∃ num view, Views x num trees view ∧
      ∀ log, (view log).session = session log ∧ (view log).time = time log := by
  classical
  refine ⟨fun t => trees.idxOf t,
    fun log => { session := session log, time := time log
                 hits := (trees.filter fun t => log.matches x t).map fun t => trees.idxOf t }, ?_, fun _ => ⟨rfl, rfl⟩⟩
  intro log t ht
  constructor
  · intro h
    obtain ⟨u, hu, hut⟩ := List.mem_map.1 h
    obtain ⟨hu1, hu2⟩ := List.mem_filter.1 hu
    have : u = t := (List.idxOf_inj hu1).1 hut
    rw [← this]
    exact hu2
  · intro h
    exact List.mem_map.2 ⟨t, List.mem_filter.2 ⟨ht, h⟩, rfl⟩

open Classical in
/-- With this log the transition of the message has its number of logs. -/
def MTransition.Due (x : Match.Ext) (t : MTransition) (seen : List Match.Log) (log : Match.Log) : Prop :=
  ∃ c n, t.rule = .logMatch c n ∧ Match.Sem (Match.BaseHolds x log) c ∧
    ((seen ++ [log]).filter fun l => decide (Match.Sem (Match.BaseHolds x l) c)).length = n

theorem due_says {x : Match.Ext} {num : Match.Tree Match.Leaf → Nat} {m : MConfig} {view : Match.Log → Log}
    (hv : Views x num (m.trees x) view) {s : MState} (hs : s ∈ m.states) {t : MTransition} (ht : t ∈ s.transitions)
    {t' : Transition} (h : TransitionSays x num m t t') (seen : List Match.Log) (log : Match.Log) :
    t'.due (seen.map view) (view log) = true ↔ t.Due x seen log := by
  obtain ⟨_, _, hr, _, _⟩ := h
  unfold Transition.due MTransition.Due
  cases hm : t.rule with
  | missing => rw [hm] at hr; exact hr.elim
  | noType => rw [hm] at hr; exact hr.elim
  | timeout ms =>
    rw [hm] at hr
    cases hr' : t'.rule with
    | logMatch k n => rw [hr'] at hr; exact hr.elim
    | timeout ms' => simp
  | logMatch c n =>
    rw [hm] at hr
    cases hr' : t'.rule with
    | timeout ms' => rw [hr'] at hr; exact hr.elim
    | logMatch k n' =>
      rw [hr'] at hr
      obtain ⟨rfl, tr, hc, rfl, hsem⟩ := hr
      have hmem : tr ∈ m.trees x := by
        refine List.mem_flatMap.2 ⟨s, hs, List.mem_flatMap.2 ⟨t, ht, ?_⟩⟩
        rw [hm]
        simp only [hc]
        simp
      have hhit : ∀ l, num tr ∈ (view l).hits ↔ Match.Sem (Match.BaseHolds x l) c := fun l =>
        (hv l tr hmem).trans (hsem l)
      have hcount : (((seen.map view) ++ [view log]).filter fun l => decide (num tr ∈ l.hits)).length =
          ((seen ++ [log]).filter fun l => @decide (Match.Sem (Match.BaseHolds x l) c) (Classical.propDecidable _)).length := by
        rw [show (seen.map view) ++ [view log] = (seen ++ [log]).map view by simp, List.filter_map, List.length_map]
        congr 1
        apply List.filter_congr
        intro l _
        simp only [Function.comp]
        rw [decide_eq_decide]
        exact hhit l
      dsimp only
      rw [hcount]
      simp only [Bool.and_eq_true, decide_eq_true_eq, hhit log]
      constructor
      · rintro ⟨h1, h2⟩
        exact ⟨c, n', rfl, h1, h2⟩
      · rintro ⟨c', n'', heq, h1, h2⟩
        cases heq
        exact ⟨h1, h2⟩

theorem forall₂_filter {α β : Type} {R : α → β → Prop} {p : α → Bool} {q : β → Bool} {l : List α} {r : List β}
    (h : List.Forall₂ R l r) (hp : ∀ a ∈ l, ∀ b, R a b → (p a = true ↔ q b = true)) :
    List.Forall₂ R (l.filter p) (r.filter q) := by
  induction h with
  | nil => exact List.Forall₂.nil
  | cons hab _ ih =>
    rename_i a b l r _
    have := hp a List.mem_cons_self b hab
    have ih := ih fun a ha => hp a (List.mem_cons_of_mem _ ha)
    by_cases h : p a = true
    · rw [List.filter_cons_of_pos h, List.filter_cons_of_pos (this.1 h)]
      exact List.Forall₂.cons hab ih
    · rw [List.filter_cons_of_neg h, List.filter_cons_of_neg (fun hb => h (this.2 hb))]
      exact ih

theorem forall₂_flatMap {α β γ δ : Type} {R : α → β → Prop} {S : γ → δ → Prop} {f : α → List γ} {g : β → List δ}
    {l : List α} {r : List β} (h : List.Forall₂ R l r) (hf : ∀ a b, R a b → List.Forall₂ S (f a) (g b)) :
    List.Forall₂ S (l.flatMap f) (r.flatMap g) := by
  induction h with
  | nil => exact List.Forall₂.nil
  | cons hab _ ih =>
    rw [List.flatMap_cons, List.flatMap_cons]
    exact List.rel_append (hf _ _ hab) ih

/-- Is the action of the message not a sankey diagram. -/
def MAction.plain : MAction → Bool
  | .sankey _ => false
  | _ => true

/-- The action triggered, if it is not a sankey diagram. -/
def Trig.plain : Trig → Option Action
  | .flush a => some (.flush a)
  | .metric a => some (.metric a)
  | .screenshot i => some (.screenshot i)
  | .sankey _ _ => none

theorem plain_actions (s : Sankeys) (l : List Action) : (trigger s l).1.filterMap Trig.plain =
    l.filter (fun a => match a with | .sankey _ => false | _ => true) := by
  refine Eq.trans (List.filterMap_congr ?_) (Eq.trans (C35_actions s l) (List.filter_congr ?_))
  · intro a _
    cases a <;> rfl
  · intro a _
    cases a <;> rfl

theorem forall₂_get {α β : Type} {R : α → β → Prop} {l : List α} {r : List β} (h : List.Forall₂ R l r) :
    ∀ (i : Nat) (a : α) (b : β), l[i]? = some a → r[i]? = some b → R a b := by
  induction h with
  | nil => intro i a b h; simp at h
  | cons hab _ ih =>
    intro i a b ha hb
    cases i with
    | zero =>
      simp only [List.getElem?_cons_zero, Option.some.injEq] at ha hb
      subst ha hb
      exact hab
    | succ i => exact ih i a b (by simpa using ha) (by simpa using hb)

open Classical in
/-- C116.  What a traversal of a running workflow does with a log is what the message says: shown the logs `seen` in a
state, it follows exactly the transitions of that state in the message that have their number of logs with this one,
counting the logs their matchers accept; it triggers exactly the actions written there, in this order, and goes on in
the states named there. -/
theorem C116_runs_partial (x : Match.Ext) (num : Match.Tree Match.Leaf → Nat) (m : MConfig) (c : Config)
    (h : m.convert x num = some c) (view : Match.Log → Log) (hv : Views x num (m.trees x) view)
    (t : Traversal) (s : MState) (hs : m.states[t.state]? = some s) (seen : List Match.Log) (log : Match.Log)
    (hw : Shown c (seen.map view) t) :
    (t.process c (view log)).2.followed = (s.transitions.filter fun u => decide (u.Due x seen log)).length ∧
    List.Forall₂ ActionSays
      ((s.transitions.filter fun u => decide (u.Due x seen log)).flatMap fun u => u.actions.filter MAction.plain)
      ((t.process c (view log)).2.actions.filterMap Trig.plain) ∧
    ∀ o ∈ (t.process c (view log)).2.outputs, ∃ u ∈ s.transitions, u.Due x seen log ∧
      ∃ s', m.states[o.state]? = some s' ∧ s'.id = u.target := by
  obtain ⟨_, _, _, _, _, hst⟩ := C116_written x num m c h
  have hlen := hst.length_eq
  have hlt : t.state < c.states.length := by
    have := (List.getElem?_eq_some_iff.1 hs).1
    omega
  have hc : c.states[t.state]? = some c.states[t.state] := List.getElem?_eq_getElem hlt
  obtain ⟨_, htr⟩ := forall₂_get hst _ _ _ hs hc
  have hct : c.transitions t.state = (c.states[t.state]).transitions := by
    unfold Config.transitions
    rw [hc]
  rw [← hct] at htr
  have hdue : List.Forall₂ (TransitionSays x num m) (s.transitions.filter fun u => decide (u.Due x seen log))
      ((c.transitions t.state).filter (·.due (seen.map view) (view log))) := by
    refine forall₂_filter htr fun u hu u' huu => ?_
    rw [due_says hv (List.mem_of_getElem? hs) hu huu, decide_eq_true_eq]
  obtain ⟨h1, h2, h3, _⟩ := C35_traversal c (view log) t (seen.map view) hw
  refine ⟨by rw [h1, hdue.length_eq], ?_, ?_⟩
  · rw [h2, List.filterMap_flatMap]
    refine forall₂_flatMap hdue fun u u' huu => ?_
    rw [plain_actions]
    refine forall₂_filter huu.2.2.2.1 fun a _ b hab => ?_
    cases a <;> cases b <;> first | exact hab.elim | simp [MAction.plain]
  · intro o ho
    have ho' := List.mem_map_of_mem (f := fun u : Traversal => u.state) ho
    rw [h3] at ho'
    obtain ⟨u', hu', hut⟩ := List.mem_map.1 (List.mem_filter.1 ho').1
    obtain ⟨u, hu, huu⟩ := forall₂_left hdue.flip u' hu'
    obtain ⟨hu1, hu2⟩ := List.mem_filter.1 hu
    obtain ⟨s', hs', hid⟩ := huu.1
    rw [hut] at hs'
    exact ⟨u, hu1, by simpa using hu2, s', hs', hid⟩

/-! ### A rule the code does not implement -/

namespace Ex
/-- leave the first state after a second -/
def late : MConfig :=
  { id := "late", exclusive := some true, duration := none, maxMatched := none
    states := [⟨"a", [⟨"b", .timeout 1000, [.screenshot "shot"], []⟩]⟩, ⟨"b", []⟩] }
end Ex

/-- C116: a workflow that waits for a time is accepted, and waits for ever: no log, however late, takes it out of its
first state (`Predicate::TimeoutMatch`, "TODO: implement timeout", bd-workflows/src/workflow.rs:876-879). -/
theorem C116_timeout_violated (x : Match.Ext) (num : Match.Tree Match.Leaf → Nat) :
    Whole x Ex.late ∧ ∃ c, Ex.late.convert x num = some c ∧
      ∀ logs, (Run.new c).after c logs = some (Run.new c) ∧
        ∀ log, ((Run.new c).process c log).2.actions = [] := by
  have hw : ∃ c, Ex.late.convert x num = some c := ⟨_, rfl⟩
  refine ⟨(C116_accepted x num _).1 hw, _, rfl, ?_⟩
  intro logs
  constructor
  · induction logs with
    | nil => rfl
    | cons log logs ih =>
      unfold Run.after
      exact ih
  · intro log
    rfl

/-! ### An example -/

namespace Ex
/-- two errors, and then a log of the screen named "pay" -/
def error : Match.Cfg Match.BaseCfg := .base (.tagInt "log_level".toList (some .eq) 4)
def pay : Match.Cfg Match.BaseCfg := .and [.base (.message (some .eq) "pay".toList), .not error]
def sold : MConfig :=
  { id := "sold", exclusive := some false, duration := some 5, maxMatched := none
    states := [
      ⟨"a", [⟨"b", .logMatch error 2, [.metric ⟨"m", [⟨"t", some (.fixed "1")⟩, ⟨"s", some (.extract "os")⟩,
          ⟨"t", some (.fixed "2")⟩], some false, some (.fixed 1)⟩], [none, some ⟨"d", some (.extract "screen"), true⟩]⟩]⟩,
      ⟨"b", [⟨"a", .logMatch pay 1, [.sankey ⟨"d", 3, []⟩,
          .flush ⟨"f", ["two", "one", "two"], some ⟨["c"], [some 9, none, some 4]⟩⟩], []⟩]⟩] }
def noRegex : Match.Ext := ⟨fun _ => false, fun _ _ => false, fun _ => none⟩
end Ex

/-- The message is complete, and this is what it is converted to: the tags in order with the last value of each, the
buffers in order and once, the least number of logs, the limit of the diagram. -/
example : ∃ num, (Ex.sold.convert Ex.noRegex num) = some
    { id := "sold", exclusive := false, duration := some 5, maxMatched := none
      states := [
        ⟨"a", [⟨1, .logMatch 0 2, [.metric ⟨"m", [("s", .extract "os"), ("t", .fixed "2")], .fixed 1, false⟩],
          [⟨"d", .extract "screen", true, 3⟩]⟩]⟩,
        ⟨"b", [⟨0, .logMatch 1 1, [.sankey ⟨"d", 3, []⟩, .flush ⟨"f", ["one", "two"], some ⟨["c"], some 4⟩⟩], []⟩]⟩] } := by
  refine ⟨fun t => match t with | .base _ => 0 | _ => 1, ?_⟩
  decide +kernel

/-- Without the diagram it is refused, the other one is taken. -/
example : (workflowsNew Ex.noRegex (fun _ => 0) [
    { Ex.sold with states := Ex.sold.states.take 1 }, Ex.late]).map (·.id) = ["late"] := by decide +kernel

/-- The first two errors make the traversal leave the first state. -/
example : MTransition.Due Ex.noRegex ⟨"b", .logMatch Ex.error 2, [], []⟩ [⟨4, 0, .str [], [], []⟩] ⟨4, 0, .str [], [], []⟩ := by
  refine ⟨_, _, rfl, ?_, ?_⟩ <;> simp [Ex.error, Match.Sem, Match.BaseHolds, Match.IntHolds]

end Verif.Wf
