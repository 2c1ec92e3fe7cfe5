import Verif.Workflow.SessionProps

/-
Properties of sankey paths (C40): what a path contains, how long it can get, and what identifies it.
-/
namespace Verif.Wf

/-! ### What a sequence of values leaves -/

/-- The nodes that a limit leaves: a node that counts stays if fewer than `limit` nodes that count come after it. -/
def recent (limit : Nat) : List Node → List Node
  | [] => []
  | n :: l => if n.counts = true ∧ limit ≤ l.countP (·.counts) then recent limit l else n :: recent limit l

/-- Pushing a sequence of values, each with its own flag. -/
def Sankey.pushAll (limit : Nat) (s : Sankey) (l : List Node) : Sankey :=
  l.foldl (fun s n => s.push n.value limit n.counts) s

theorem recent_count (limit : Nat) : ∀ l : List Node,
    (recent limit l).countP (·.counts) = min limit (l.countP (·.counts))
  | [] => by simp [recent]
  | n :: l => by
    have ih := recent_count limit l
    unfold recent
    split
    · rename_i h
      rw [ih, List.countP_cons, if_pos h.1]
      omega
    · rename_i h
      rw [List.countP_cons, List.countP_cons, ih]
      split
      · rename_i hc
        have : ¬ limit ≤ l.countP (·.counts) := fun hl => h ⟨hc, hl⟩
        omega
      · omega

theorem recent_other (limit : Nat) : ∀ l : List Node,
    (recent limit l).filter (!·.counts) = l.filter (!·.counts)
  | [] => rfl
  | n :: l => by
    have ih := recent_other limit l
    unfold recent
    split
    · rename_i h
      rw [ih, List.filter_cons, if_neg (by simp [h.1])]
    · rw [List.filter_cons, List.filter_cons, ih]

theorem recent_sublist (limit : Nat) : ∀ l : List Node, (recent limit l).Sublist l
  | [] => .slnil
  | n :: l => by
    have ih := recent_sublist limit l
    unfold recent
    split
    · exact ih.cons n
    · exact ih.cons_cons n

/-- Adding a node that does not count. -/
theorem recent_quiet (limit : Nat) (v : String) : ∀ l : List Node,
    recent limit (l ++ [⟨v, false⟩]) = recent limit l ++ [⟨v, false⟩]
  | [] => by simp [recent]
  | n :: l => by
    have ih := recent_quiet limit v l
    rw [List.cons_append]
    unfold recent
    rw [ih]
    have : (l ++ [Node.mk v false]).countP (·.counts) = l.countP (·.counts) := by simp
    rw [this]
    split <;> rfl

theorem dropFirst_recent (limit : Nat) (v : String) : ∀ l : List Node, 
    (if limit < l.countP (·.counts) + 1 then
      recent limit (l ++ [⟨v, true⟩]) = dropFirst (recent limit l ++ [⟨v, true⟩])
    else recent limit (l ++ [⟨v, true⟩]) = recent limit l ++ [⟨v, true⟩])
  | [] => by
    by_cases h : limit = 0
    · subst h
      simp [recent, dropFirst]
    · have : ¬ limit < [].countP (fun n : Node => n.counts) + 1 := by simp; omega
      rw [if_neg this]
      simp [recent, h]
  | n :: l => by
    have ih := dropFirst_recent limit v l
    rw [List.cons_append]
    have hc : (l ++ [Node.mk v true]).countP (·.counts) = l.countP (·.counts) + 1 := by simp
    unfold recent
    rw [hc, List.countP_cons]
    by_cases hn : n.counts = true
    · rw [if_pos hn]
      by_cases h1 : limit ≤ l.countP (·.counts)
      · rw [if_pos (by omega), if_pos ⟨hn, by omega⟩, if_pos ⟨hn, h1⟩]
        rw [if_pos (by omega)] at ih
        exact ih
      · rw [if_neg (by omega)] at ih
        by_cases h2 : limit ≤ l.countP (·.counts) + 1
        · rw [if_pos (by omega), if_pos ⟨hn, h2⟩, if_neg (fun h => h1 h.2), ih]
          simp [dropFirst, hn]
        · rw [if_neg (by omega), if_neg (fun h => h2 h.2), if_neg (fun h => h1 h.2), ih]
          rfl
    · rw [if_neg (c := n.counts = true ∧ _) (fun h => hn h.1), if_neg (c := n.counts = true ∧ _) (fun h => hn h.1),
        if_neg (c := n.counts = true) hn, Nat.add_zero]
      split
      · rename_i h
        rw [if_pos h] at ih
        rw [ih]
        simp [dropFirst, hn]
      · rename_i h
        rw [if_neg h] at ih
        rw [ih]
        rfl

/-- C40.  Whatever values are added to an empty path: a node stays exactly if it does not count towards the limit or fewer
than `limit` nodes that count were added after it; so the oldest go first.  The path is marked as trimmed exactly if more
than `limit` nodes that count were added, that is, if one is gone. -/
theorem C40_path (limit : Nat) (l : List Node) :
    (({} : Sankey).pushAll limit l).nodes = recent limit l ∧
      ((({} : Sankey).pushAll limit l).trimmed = true ↔ limit < l.countP (·.counts)) := by
  have key : ∀ m : List Node, (({} : Sankey).pushAll limit m.reverse).nodes = recent limit m.reverse ∧
      ((({} : Sankey).pushAll limit m.reverse).trimmed = true ↔ limit < m.reverse.countP (·.counts)) := by
    intro m
    induction m with
    | nil => simp [Sankey.pushAll, recent]
    | cons n m ih =>
      have hstep : ({} : Sankey).pushAll limit (n :: m).reverse =
          (({} : Sankey).pushAll limit m.reverse).push n.value limit n.counts := by
        simp [Sankey.pushAll, List.foldl_append]
      rw [hstep, List.reverse_cons]
      generalize m.reverse = l at *
      generalize ({} : Sankey).pushAll limit l = s at *
      obtain ⟨ih1, ih2⟩ := ih
      obtain ⟨v, b⟩ := n
      cases b with
      | false =>
        unfold Sankey.push
        simp only [Bool.false_eq_true, if_false]
        rw [ih1, recent_quiet]
        refine ⟨rfl, ?_⟩
        rw [ih2]
        simp
      | true =>
        have hd := dropFirst_recent limit v l
        have hc : ((s.nodes ++ [Node.mk v true]).filter (·.counts)).length = min limit (l.countP (·.counts)) + 1 := by
          rw [ih1, ← List.countP_eq_length_filter, List.countP_append, recent_count]
          simp
        unfold Sankey.push
        simp only [if_true]
        rw [hc]
        by_cases h : limit < l.countP (·.counts) + 1
        · rw [if_pos h] at hd
          rw [if_pos (by omega), hd, ih1]
          exact ⟨rfl, by simp; omega⟩
        · rw [if_neg h] at hd
          rw [if_neg (by omega), hd, ih1]
          refine ⟨rfl, ?_⟩
          dsimp only
          rw [ih2, List.countP_append]
          simp
          omega
  have := key l.reverse
  rwa [List.reverse_reverse] at this

/-- C40.  No more than `limit` nodes that count are kept. -/
theorem C40_bounded (limit : Nat) (l : List Node) :
    ((({} : Sankey).pushAll limit l).nodes).countP (·.counts) ≤ limit := by
  rw [(C40_path limit l).1, recent_count]
  omega

/-- Nodes that do not count are all kept, however many they are. -/
theorem C40_uncounted (limit : Nat) (l : List Node) :
    ((({} : Sankey).pushAll limit l).nodes).filter (!·.counts) = l.filter (!·.counts) := by
  rw [(C40_path limit l).1, recent_other]

example : ({} : Sankey).pushAll 2 [⟨"a", true⟩, ⟨"b", false⟩, ⟨"c", true⟩, ⟨"d", true⟩] =
    ⟨[⟨"b", false⟩, ⟨"c", true⟩, ⟨"d", true⟩], true⟩ := by decide

/-! ### Along a traversal -/

/-- The nodes that a transition adds to the path `id`. -/
def added (log : Log) (id : String) (es : List Extraction) : List Node :=
  (es.filter fun e => e.sankey = id).filterMap fun e => (e.value.value log).map fun v => ⟨v, e.counts⟩

theorem lookup_upsert (id : String) (f : Sankey → Sankey) : ∀ s : Sankeys,
    lookup id (upsert id f s) = some (f ((lookup id s).getD {}))
  | [] => by simp [upsert, lookup]
  | e :: l => by
    unfold upsert
    split
    · rename_i h
      simp [lookup, h]
    · rename_i h
      simp only [lookup, if_neg h]
      exact lookup_upsert id f l

theorem lookup_upsert_ne {id k : String} (f : Sankey → Sankey) (h : k ≠ id) : ∀ s : Sankeys,
    lookup k (upsert id f s) = lookup k s
  | [] => by simp [upsert, lookup, Ne.symm h]
  | e :: l => by
    unfold upsert
    split
    · rename_i he
      simp [lookup, he, Ne.symm h]
    · simp only [lookup, lookup_upsert_ne f h l]

/-- C40.  What following a transition does to each path: the values it extracts for that path are added to it, in order,
all under the limit of that path; a path for which nothing is extracted stays as it is. -/
theorem C40_extract (log : Log) (id : String) (limit : Nat) (es : List Extraction)
    (hl : ∀ e ∈ es, e.sankey = id → e.limit = limit) (s : Sankeys) :
    lookup id (extract log s es) =
      if added log id es = [] then lookup id s
      else some (((lookup id s).getD {}).pushAll limit (added log id es)) := by
  induction es generalizing s with
  | nil => simp [extract, added]
  | cons e es ih =>
    have ih := ih (fun x hx => hl x (List.mem_cons_of_mem _ hx))
    unfold extract
    by_cases hid : e.sankey = id
    · cases hv : e.value.value log with
      | none =>
        have : added log id (e :: es) = added log id es := by
          simp [added, hid, hv]
        rw [this]
        exact ih s
      | some v =>
        have : added log id (e :: es) = ⟨v, e.counts⟩ :: added log id es := by
          simp [added, hid, hv]
        rw [this, if_neg (by simp)]
        dsimp only
        rw [ih, hid, lookup_upsert, hl e List.mem_cons_self hid]
        split
        · rename_i h0
          rw [h0]
          rfl
        · rfl
    · have : added log id (e :: es) = added log id es := by
        simp [added, hid]
      rw [this]
      cases hv : e.value.value log with
      | none => exact ih s
      | some v =>
        dsimp only
        rw [ih, lookup_upsert_ne _ (Ne.symm hid)]

theorem lookup_erase (id : String) : ∀ s : Sankeys, lookup id (erase id s) = none
  | [] => rfl
  | e :: l => by
    have ih := lookup_erase id l
    unfold erase at ih ⊢
    rw [List.filter_cons]
    split
    · rename_i h
      have h : e.1 ≠ id := by simpa using h
      simp only [lookup, if_neg h, ih]
    · exact ih

theorem lookup_erase_ne {id k : String} (h : k ≠ id) : ∀ s : Sankeys, lookup k (erase id s) = lookup k s
  | [] => rfl
  | e :: l => by
    have ih := lookup_erase_ne h l
    unfold erase at ih ⊢
    rw [List.filter_cons]
    split
    · simp only [lookup, ih]
    · rename_i he
      have he : e.1 = id := by simpa using he
      rw [ih]
      simp [lookup, he, Ne.symm h]

/-- C40.  A path that is emitted contains the values collected for its diagram, in order, and nothing else; after that the
collection for this diagram starts anew. -/
theorem C40_emitted (s : Sankeys) (acts : List Action) (a : SankeyCfg) (p : Path)
    (h : Trig.sankey a p ∈ (trigger s acts).1) :
    ∃ st, lookup a.id s = some st ∧ p.sankey = a.id ∧ p.nodes = st.nodes.map (·.value) ∧ p.trimmed = st.trimmed ∧
      lookup a.id (trigger s acts).2 = none := by
  have hgone : ∀ (acts : List Action) (s : Sankeys) (k : String), lookup k s = none → lookup k (trigger s acts).2 = none := by
    intro acts
    induction acts with
    | nil => intro s k hk; exact hk
    | cons x acts ih =>
      intro s k hk
      cases x with
      | flush a => exact ih s k hk
      | metric a => exact ih s k hk
      | screenshot a => exact ih s k hk
      | sankey a =>
        unfold trigger
        split
        · exact ih s k hk
        · refine ih _ k ?_
          by_cases hka : k = a.id
          · subst hka
            exact lookup_erase _ _
          · rw [lookup_erase_ne hka]; exact hk
  induction acts generalizing s with
  | nil => cases h
  | cons x acts ih =>
    cases x with
    | flush b => 
      unfold trigger at h ⊢
      exact ih s ((List.mem_cons.1 h).resolve_left (by simp))
    | metric b =>
      unfold trigger at h ⊢
      exact ih s ((List.mem_cons.1 h).resolve_left (by simp))
    | screenshot b =>
      unfold trigger at h ⊢
      exact ih s ((List.mem_cons.1 h).resolve_left (by simp))
    | sankey b =>
      unfold trigger at h ⊢
      split at h
      · rename_i hb
        exact ih s h
      · rename_i st hb
        rcases List.mem_cons.1 h with h | h
        · cases h
          exact ⟨st, hb, rfl, rfl, rfl, hgone acts _ _ (lookup_erase _ _)⟩
        · obtain ⟨st', h1, h2⟩ := ih _ h
          by_cases hid : a.id = b.id
          · rw [hid, lookup_erase] at h1
            cases h1
          · rw [lookup_erase_ne hid] at h1
            exact ⟨st', h1, h2⟩

/-! ### Over histories -/

/-- The extractions of a configuration. -/
def Config.extractions (c : Config) : List Extraction :=
  (c.states.map fun s => (s.transitions.map (·.extractions)).flatten).flatten

theorem mem_extractions {c : Config} {e : Extraction} :
    e ∈ c.extractions ↔ ∃ s ∈ c.states, ∃ tr ∈ s.transitions, e ∈ tr.extractions := by
  unfold Config.extractions
  simp only [List.mem_flatten, List.mem_map]
  constructor
  · rintro ⟨_, ⟨s, hs, rfl⟩, h⟩
    simp only [List.mem_flatten, List.mem_map] at h
    obtain ⟨_, ⟨tr, htr, rfl⟩, h⟩ := h
    exact ⟨s, hs, tr, htr, h⟩
  · rintro ⟨s, hs, tr, htr, h⟩
    exact ⟨_, ⟨s, hs, rfl⟩, List.mem_flatten.2 ⟨_, List.mem_map.2 ⟨tr, htr, rfl⟩, h⟩⟩

/-- All extractions for one diagram have the same limit. -/
def Config.uniform (c : Config) : Prop :=
  ∀ e ∈ c.extractions, ∀ e' ∈ c.extractions, e.sankey = e'.sankey → e.limit = e'.limit

/-- C40.  In a configuration that is accepted, all extractions for a diagram have the limit of a sankey action of that
diagram, the same for all. -/
theorem C40_accepted (p : PConfig) (c : Config) (h : Config.new p = some c) :
    c.uniform ∧ ∀ e ∈ c.extractions, ∃ s ∈ c.states, ∃ tr ∈ s.transitions, ∃ a,
      Action.sankey a ∈ tr.actions ∧ a.id = e.sankey ∧ a.limit = e.limit := by
  have hl : ∀ e ∈ c.extractions, lookup e.sankey p.limits = some e.limit := by
    intro e he
    obtain ⟨s, hs, tr, htr, he⟩ := mem_extractions.1 he
    obtain ⟨_, h2, _⟩ := Config.new_spec h
    obtain ⟨_, h4⟩ := mapOpt_spec h2
    obtain ⟨i, hi⟩ := List.mem_iff_getElem?.1 hs
    obtain ⟨ps, _, hst⟩ := h4 i s hi
    unfold PConfig.state at hst
    split at hst
    · rename_i t ht
      cases hst
      obtain ⟨_, h5⟩ := mapOpt_spec ht
      obtain ⟨j, hj⟩ := List.mem_iff_getElem?.1 htr
      obtain ⟨pt, _, htt⟩ := h5 j tr hj
      unfold PConfig.transition at htt
      split at htt
      · rename_i k r a es hi hr ha hes
        cases htt
        obtain ⟨_, h6⟩ := mapOpt_spec hes
        obtain ⟨n, hn⟩ := List.mem_iff_getElem?.1 he
        obtain ⟨pe, _, hpe⟩ := h6 n e hn
        unfold PConfig.extraction at hpe
        split at hpe
        · rename_i l v h7 h8
          cases hpe
          exact h7
        · cases hpe
      · cases htt
    · cases hst
  refine ⟨?_, ?_⟩
  · intro e he e' he' hid
    have h1 := hl e he
    have h2 := hl e' he'
    rw [hid, h2] at h1
    exact (Option.some.inj h1).symm
  · intro e he
    have hmem : ∀ (l : List (String × Nat)) (k : String) (v : Nat), lookup k l = some v → (k, v) ∈ l := by
      intro l
      induction l with
      | nil => intro k v h; cases h
      | cons x l ih =>
        intro k v h
        unfold lookup at h
        split at h
        · rename_i hx
          cases h
          rw [← hx]
          exact List.mem_cons_self
        · exact List.mem_cons_of_mem _ (ih k v h)
    have := hmem _ _ _ (hl e he)
    unfold PConfig.limits at this
    rw [List.mem_reverse] at this
    simp only [List.mem_flatten, List.mem_map] at this
    obtain ⟨l, ⟨ps, hps, rfl⟩, hin⟩ := this
    simp only [List.mem_flatten, List.mem_map] at hin
    obtain ⟨l, ⟨pt, hpt, rfl⟩, hin⟩ := hin
    unfold PTransition.limits at hin
    obtain ⟨x, hx, hxe⟩ := List.mem_filterMap.1 hin
    obtain ⟨a, rfl, ha1, ha2⟩ : ∃ a, x = some (.sankey a) ∧ a.id = e.sankey ∧ a.limit = e.limit := by
      split at hxe
      · rename_i a
        have hxe := Option.some.inj hxe
        exact ⟨a, rfl, congrArg Prod.fst hxe, congrArg Prod.snd hxe⟩
      · cases hxe
    obtain ⟨_, h2, _⟩ := Config.new_spec h
    obtain ⟨hlen, h4⟩ := mapOpt_spec h2
    obtain ⟨i, hi⟩ := List.mem_iff_getElem?.1 hps
    have hil : i < c.states.length := by
      have := (List.getElem?_eq_some_iff.1 hi).1
      omega
    obtain ⟨ps', hps', hst⟩ := h4 i _ (List.getElem?_eq_getElem hil)
    rw [hi] at hps'
    cases hps'
    have hst' := hst
    unfold PConfig.state at hst
    split at hst
    · rename_i ts hts
      have hts' : ts = (c.states[i]).transitions := by
        have := Option.some.inj hst
        rw [← this]
      obtain ⟨hlen2, h5⟩ := mapOpt_spec hts
      obtain ⟨j, hj⟩ := List.mem_iff_getElem?.1 hpt
      have hjl : j < ts.length := by
        have := (List.getElem?_eq_some_iff.1 hj).1
        omega
      obtain ⟨pt', hpt', _⟩ := h5 j _ (List.getElem?_eq_getElem hjl)
      rw [hj] at hpt'
      cases hpt'
      have htr : (c.states[i]).transitions[j]? = some ts[j] := by
        rw [← hts']; exact List.getElem?_eq_getElem hjl
      obtain ⟨_, _, h3⟩ := C62_accepted p c h
      obtain ⟨_, ps2, pt2, q1, q2, _, _, q3⟩ := h3 i j _ _ (List.getElem?_eq_getElem hil) htr
      rw [hi] at q1
      cases q1
      rw [hj] at q2
      cases q2
      refine ⟨c.states[i], List.getElem_mem _, ts[j], List.mem_of_getElem? htr, a, ?_, ha1, ha2⟩
      rw [q3, List.mem_map] at hx
      obtain ⟨y, hy, hye⟩ := hx
      cases hye
      exact hy
    · cases hst

/-- Every path of the traversal is what some sequence of values leaves under the limit of its diagram. -/
def Traversal.collected (c : Config) (t : Traversal) : Prop :=
  ∀ e ∈ c.extractions, ∀ st, lookup e.sankey t.sankeys = some st → ∃ l, st = ({} : Sankey).pushAll e.limit l

theorem pushAll_append (limit : Nat) (s : Sankey) (l m : List Node) :
    s.pushAll limit (l ++ m) = (s.pushAll limit l).pushAll limit m := by
  simp [Sankey.pushAll, List.foldl_append]

theorem trigger_keeps : ∀ (acts : List Action) (s : Sankeys) (k : String),
    lookup k (trigger s acts).2 = none ∨ lookup k (trigger s acts).2 = lookup k s
  | [], _, _ => .inr rfl
  | .flush _ :: acts, s, k => trigger_keeps acts s k
  | .metric _ :: acts, s, k => trigger_keeps acts s k
  | .screenshot _ :: acts, s, k => trigger_keeps acts s k
  | .sankey a :: acts, s, k => by
    unfold trigger
    split
    · exact trigger_keeps acts s k
    · rcases trigger_keeps acts (erase a.id s) k with h | h
      · exact .inl h
      · by_cases hk : k = a.id
        · subst hk
          rw [lookup_erase] at h
          exact .inl h
        · rw [lookup_erase_ne hk] at h
          exact .inr h

theorem extract_collected {c : Config} (hu : c.uniform) {log : Log} {t : Traversal} (h : t.collected c)
    {es : List Extraction} (hes : ∀ e ∈ es, e ∈ c.extractions) (e : Extraction) (he : e ∈ c.extractions) (st : Sankey)
    (hl : lookup e.sankey (extract log t.sankeys es) = some st) : ∃ l, st = ({} : Sankey).pushAll e.limit l := by
  rw [C40_extract log e.sankey e.limit es (fun x hx hid => hu x (hes x hx) e he hid)] at hl
  split at hl
  · exact h e he st hl
  · cases hs : lookup e.sankey t.sankeys with
    | none =>
      rw [hs] at hl
      exact ⟨_, (Option.some.inj hl).symm⟩
    | some st' =>
      obtain ⟨l, rfl⟩ := h e he st' hs
      rw [hs] at hl
      exact ⟨_, (Option.some.inj hl).symm.trans (pushAll_append ..).symm⟩

theorem mem_transitions {c : Config} {i : Nat} {tr : Transition} (h : tr ∈ c.transitions i) :
    ∀ e ∈ tr.extractions, e ∈ c.extractions := by
  intro e he
  unfold Config.transitions at h
  cases hs : c.states[i]? with
  | none => rw [hs] at h; cases h
  | some s =>
    rw [hs] at h
    exact mem_extractions.2 ⟨s, List.mem_of_getElem? hs, tr, h, he⟩

theorem scan_from (c : Config) (s : Sankeys) (log : Log) :
    ∀ (trs : List Transition) (ns : List Nat), ∀ t ∈ (scan c s log trs ns).2.outputs,
      ∃ tr ∈ trs, t.sankeys = (trigger (extract log s tr.extractions) tr.actions).2
  | [], ns => by simp [scan]
  | tr :: trs, [] => by simp [scan]
  | tr :: trs, n :: ns => by
    have ih : ∀ t ∈ (scan c s log trs ns).2.outputs,
        ∃ x ∈ tr :: trs, t.sankeys = (trigger (extract log s x.extractions) x.actions).2 := by
      intro t ht
      obtain ⟨x, hx, h⟩ := scan_from c s log trs ns t ht
      exact ⟨x, List.mem_cons_of_mem _ hx, h⟩
    unfold scan
    split
    · exact ih
    · split
      · split
        · intro t ht
          simp only [List.mem_append, Option.mem_toList] at ht
          rcases ht with ht | ht
          · exact ⟨tr, List.mem_cons_self, (Traversal.new_some ht).2.2.1⟩
          · exact ih t ht
        · exact ih
      · exact ih

theorem Run.process_collected {c : Config} (hu : c.uniform) {log : Log} {r : Run}
    (h : ∀ t ∈ r.traversals, t.collected c) : ∀ t ∈ (r.process c log).1.traversals, t.collected c := by
  intro t ht
  rcases acc_from c log r.matched r.first r.traversals t ht with h' | ⟨u, hu', rfl⟩ | ⟨u, hu', h'⟩
  · exact h t h'
  · exact h u hu'
  · obtain ⟨tr, htr, hs⟩ := scan_from c u.sankeys log (c.transitions u.state) u.counts t h'
    intro e he st hst
    rw [hs] at hst
    rcases trigger_keeps tr.actions (extract log u.sankeys tr.extractions) e.sankey with hk | hk
    · rw [hk] at hst
      cases hst
    · rw [hk] at hst
      exact extract_collected hu (h u hu') (mem_transitions htr) e he st hst

theorem keeps_collected {cs : List Config} (hu : ∀ c ∈ cs, c.uniform)
    (hk : ∀ c ∈ cs, ∀ c' ∈ cs, c.id = c'.id → c.states = c'.states) :
    Keeps cs (fun c runs => ∀ r ∈ runs, ∀ t ∈ r.traversals, t.collected c)
      (fun w => ∀ c ∈ cs, c.id = w.id → ∀ r ∈ w.runs, ∀ t ∈ r.traversals, t.collected c) where
  empty := by intro c _ r hr; cases hr
  step := by
    intro c hc limit log count runs h x hx
    obtain ⟨r, hr, hx⟩ := processRuns_done x hx
    have hf : ∀ t ∈ r.traversals, t.collected c := by
      rcases hr with rfl | hr
      · intro t ht e he st hst
        have : Traversal.new c 0 [] = some t := by simpa [Run.new] using ht
        rw [(Traversal.new_some this).2.2.1] at hst
        cases hst
      · exact h r hr
    rcases hx with rfl | ⟨rfl, _⟩
    · exact hf
    · exact Run.process_collected (hu c hc) hf
  save := by
    intro c hc runs h c' hc' hid r hr t ht
    have := h r (List.mem_filter.1 hr).1 t ht
    unfold Traversal.collected Config.extractions at this ⊢
    rw [← hk c hc c' hc' hid.symm]
    exact this
  load := by
    intro c hc runs k h r hr
    exact h c hc rfl r (List.mem_of_mem_take hr)

/-- C40.  Over all histories of the engine, with accepted configurations whose states do not change under an identifier:
in every traversal, every path holds at most as many nodes that count as the limit of its diagram. -/
theorem C40_memory (ops : List Op) (ha : ∀ c ∈ histConfigs ops, ∃ p, Config.new p = some c)
    (hk : ∀ c ∈ histConfigs ops, ∀ c' ∈ histConfigs ops, c.id = c'.id → c.states = c'.states)
    (i : Nat) (w : Workflow) (c : Config) (hw : (({} : Engine).run ops).workflows[i]? = some w)
    (hc : (({} : Engine).run ops).configs[i]? = some c) :
    ∀ r ∈ w.runs, ∀ t ∈ r.traversals, ∀ e ∈ c.extractions, ∀ st, lookup e.sankey t.sankeys = some st →
      st.nodes.countP (·.counts) ≤ e.limit := by
  intro r hr t ht e he st hst
  have hu : ∀ c ∈ histConfigs ops, c.uniform := by
    intro c hc
    obtain ⟨p, hp⟩ := ha c hc
    exact (C40_accepted p c hp).1
  obtain ⟨l, rfl⟩ :=
    (((Good.run (keeps_collected hu hk) ops Good.init mem_histConfigs).1.get i w c hw hc).2.2) r hr t ht e he st hst
  exact C40_bounded _ _

namespace Ex
/-- collects the field "k" of every log that matcher 7 accepts, two at most, and emits the path on matcher 8 -/
def collecting : PConfig :=
  { id := "w", duration := none, maxMatched := none, exclusive := some true,
    states := [⟨"A", [⟨"B", some (.logMatch 7 1), [], [⟨"d", some (.extract "k"), true⟩]⟩]⟩,
      ⟨"B", [⟨"B", some (.logMatch 7 1), [], [⟨"d", some (.extract "k"), true⟩]⟩,
        ⟨"C", some (.logMatch 8 1), [some (.sankey ⟨"d", 2, []⟩)], []⟩]⟩, ⟨"C", []⟩] }
def value (v : String) (m : Nat) : Op := .log { session := "s", time := 0, hits := [m], fields := [("k", v)] } [] {}
end Ex

example : ((Config.new Ex.collecting).map fun c =>
    ((({} : Engine).run [.start 9 true [] ⟨[c], [], []⟩, Ex.value "a" 7, Ex.value "b" 7, Ex.value "c" 7, Ex.value "" 8]).paths)) =
    some [⟨"d", ["b", "c"], "bc", true⟩] := by decide +kernel

/-! ### Identifiers -/

theorem calcPathId_eq (s : Sankey) : (calcPathId s).toList = (s.nodes.map (·.value.toList)).flatten := by
  have : ∀ (l : List Node) (a : String), (l.foldl (fun a n => a ++ n.value) a).toList =
      a.toList ++ (l.map (·.value.toList)).flatten := by
    intro l
    induction l with
    | nil => intro a; simp
    | cons n l ih =>
      intro a
      rw [List.foldl_cons, ih]
      simp
  have h := this s.nodes ""
  simpa [calcPathId] using h

/-- C40.  What the identifier of a path depends on: the characters of its values, one after the other. -/
theorem C40_same_nodes (id id' : String) (s s' : Sankey) :
    (Path.new id s).pathId = (Path.new id' s').pathId ↔
      ((Path.new id s).nodes.map (·.toList)).flatten = ((Path.new id' s').nodes.map (·.toList)).flatten := by
  unfold Path.new
  dsimp only
  rw [← String.toList_inj, calcPathId_eq, calcPathId_eq, List.map_map, List.map_map]
  rfl

theorem flatten_lengths {α : Type} : ∀ {l m : List (List α)}, l.map (·.length) = m.map (·.length) →
    l.flatten = m.flatten → l = m
  | [], [], _, _ => rfl
  | [], _ :: _, h, _ => by simp at h
  | _ :: _, [], h, _ => by simp at h
  | a :: l, b :: m, h, hf => by
    simp only [List.map_cons, List.cons.injEq] at h
    simp only [List.flatten_cons] at hf
    obtain ⟨h1, h2⟩ := List.append_inj hf h.1
    rw [h1, flatten_lengths h.2 h2]

/-- C40.  Two paths with the same identifier whose values have the same lengths contain the same nodes.  Missing: paths
whose values divide the same characters differently, see `C40_identifier_violated`. -/
theorem C40_identifier_partial (id id' : String) (s s' : Sankey)
    (hl : (Path.new id s).nodes.map (·.length) = (Path.new id' s').nodes.map (·.length))
    (h : (Path.new id s).pathId = (Path.new id' s').pathId) : (Path.new id s).nodes = (Path.new id' s').nodes := by
  have := flatten_lengths (l := (Path.new id s).nodes.map (·.toList)) (m := (Path.new id' s').nodes.map (·.toList))
    (by simpa only [List.map_map, Function.comp_def, String.length_toList] using hl) ((C40_same_nodes id id' s s').1 h)
  exact (List.map_inj_right (fun a b hab => String.toList_inj.1 hab)).1 this

/-- Different paths with the same identifier: "a" then "bc", and "ab" then "c". -/
theorem C40_identifier_violated :
    (Path.new "d" ⟨[⟨"a", true⟩, ⟨"bc", true⟩], false⟩).pathId = (Path.new "d" ⟨[⟨"ab", true⟩, ⟨"c", true⟩], false⟩).pathId ∧
      (Path.new "d" ⟨[⟨"a", true⟩, ⟨"bc", true⟩], false⟩).nodes ≠
        (Path.new "d" ⟨[⟨"ab", true⟩, ⟨"c", true⟩], false⟩).nodes := by decide +kernel

end Verif.Wf
