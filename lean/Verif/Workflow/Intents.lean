import Verif.Workflow.SankeyProps

/-
Model of the sankey processor task: bd-workflows/src/sankey_diagram.rs, and the part of C40 about it.

The task takes one path after the other from its channel.  For each the environment says how the negotiation and the upload
end.  Statistics are left out; the identifiers of the requests are fresh and never compared.
-/
namespace Verif.Wf

/-- `PROCESSED_INTENTS_LRU_CACHE_SIZE` (23). -/
def cacheSize : Nat := 100

/-- `SeenSankeyPath` (29-33). -/
structure SeenPath where
  sankey : String
  pathId : String
  deriving DecidableEq, Repr

def Path.seen (p : Path) : SeenPath := ⟨p.sankey, p.pathId⟩

/-- `ProcessedIntents::contains` (43-57): the answer, and the cache with a path that was found moved to the back. -/
def contains (l : List SeenPath) (p : Path) : Bool × List SeenPath :=
  match l.idxOf? p.seen with
  | none => (false, l)
  | some i => (true, l.eraseIdx i ++ [p.seen])

/-- `ProcessedIntents::insert` (59-79). -/
def insert (l : List SeenPath) (p : Path) : List SeenPath :=
  let l' := match l.idxOf? p.seen with
    | some i => l.eraseIdx i ++ [p.seen]
    | none => l ++ [p.seen]
  if l'.length > cacheSize then l'.drop 1 else l'

/-- How the server, or the lack of one, treats a path. -/
inductive Fate where
  /-- the intent could not be sent, or its answer never came -/
  | noAnswer
  /-- `IntentDecision::Drop` -/
  | drop
  /-- `IntentDecision::UploadImmediately`; did the upload succeed? -/
  | upload (ok : Bool)
  deriving DecidableEq, Repr

/-- What is sent for a path. -/
inductive SankeyMsg where
  | intent (sankey pathId : String)
  | upload (sankey pathId : String) (nodes : List String)
  deriving DecidableEq, Repr

structure Processor where
  seen : List SeenPath := []
  sent : List SankeyMsg := []
  deriving DecidableEq, Repr

/-- `upload_sankey_path` (178-228). -/
def Processor.upload (s : Processor) (p : Path) (ok : Bool) : Processor :=
  { sent := s.sent ++ [.upload p.sankey p.pathId p.nodes]
    seen := if ok then insert s.seen p else s.seen }

/-- `handle_upload_intent_decision` (150-176). -/
def Processor.decide (s : Processor) (p : Path) : Fate → Processor
  | .noAnswer => s
  | .drop => { s with seen := insert s.seen p }
  | .upload ok => s.upload p ok

/-- `process_sankey` (119-148), `perform_upload_intent_negotiation` (230-256).  A send that fails is counted as sent: the
channel is closed then, and the message is gone either way. -/
def Processor.process (s : Processor) (x : Path × Fate) : Processor :=
  match contains s.seen x.1 with
  | (true, l) => { s with seen := l }
  | (false, l) => Processor.decide ⟨l, s.sent ++ [.intent x.1.sankey x.1.pathId]⟩ x.1 x.2

/-- `run` (109-117). -/
def Processor.run (s : Processor) (l : List (Path × Fate)) : Processor := l.foldl Processor.process s

/-! ### The cache -/

/-- Paths in the order in which they were last used, most recent first. -/
def lastUses : List SeenPath → List SeenPath
  | [] => []
  | k :: l => k :: (lastUses l).filter (· ≠ k)

theorem lastUses_nodup : ∀ l, (lastUses l).Nodup
  | [] => .nil
  | k :: l => by
    unfold lastUses
    refine List.nodup_cons.2 ⟨by simp, (lastUses_nodup l).filter _⟩

theorem mem_lastUses {k : SeenPath} : ∀ {l : List SeenPath}, k ∈ lastUses l ↔ k ∈ l
  | [] => by simp [lastUses]
  | x :: l => by
    unfold lastUses
    rw [List.mem_cons, List.mem_filter, mem_lastUses (l := l), List.mem_cons]
    by_cases h : k = x <;> simp [h]

theorem idxOf?_spec {l : List SeenPath} {k : SeenPath} {i : Nat} (h : l.idxOf? k = some i) : l.eraseIdx i = l.erase k := by
  induction l generalizing i with
  | nil => simp at h
  | cons a l ih =>
    rw [List.idxOf?_cons] at h
    split at h
    · rename_i ha
      cases h
      simp only [List.eraseIdx_cons_zero]
      rw [List.erase_cons, if_pos ha]
    · rename_i ha
      rw [Option.map_eq_some_iff] at h
      obtain ⟨j, hj, rfl⟩ := h
      rw [List.eraseIdx_cons_succ, ih hj, List.erase_cons, if_neg ha]

theorem erase_reverse {l : List SeenPath} {k : SeenPath} (h : l.Nodup) : (l.erase k).reverse = l.reverse.filter (· ≠ k) := by
  rw [h.erase_eq_filter, List.filter_reverse]
  congr 1
  apply List.filter_congr
  intro x _
  by_cases hx : x = k <;> simp [hx]

theorem idxOf?_none {l : List SeenPath} {k : SeenPath} (h : l.idxOf? k = none) : k ∉ l := by
  simpa using h

/-- Moving a path to the back, and dropping the front if the cache is too long, in terms of most recent first. -/
theorem touch {l uses : List SeenPath} {k : SeenPath} (h : l.reverse = (lastUses uses).take cacheSize) :
    (let l' := l.erase k ++ [k]
     (if l'.length > cacheSize then l'.drop 1 else l')).reverse = (lastUses (k :: uses)).take cacheSize := by
  have hn : l.Nodup := by
    have : l.reverse.Nodup := by
      rw [h]
      exact (lastUses_nodup uses).sublist (List.take_sublist _ _)
    exact (List.pairwise_reverse.1 this).imp fun h => Ne.symm h
  have hrev : (l.erase k ++ [k]).reverse = k :: ((lastUses uses).take cacheSize).filter (· ≠ k) := by
    rw [List.reverse_append, erase_reverse hn, h]
    rfl
  have hdrop : ∀ (m : List SeenPath), (if m.length > cacheSize then m.drop 1 else m).length ≤ m.length ∧
      (m.length ≤ cacheSize + 1 → (if m.length > cacheSize then m.drop 1 else m).reverse = m.reverse.take cacheSize) := by
    intro m
    split
    · rename_i hm
      refine ⟨by simp, fun hle => ?_⟩
      have : m.length = cacheSize + 1 := by omega
      rw [List.reverse_drop]
      congr 1
      omega
    · rename_i hm
      refine ⟨Nat.le_refl _, fun _ => ?_⟩
      rw [List.take_of_length_le]
      rw [List.length_reverse]
      omega
  dsimp only
  rw [(hdrop _).2 ?_, hrev]
  · rw [show lastUses (k :: uses) = k :: (lastUses uses).filter (· ≠ k) from rfl]
    unfold cacheSize
    rw [List.take_succ_cons, List.take_succ_cons]
    congr 1
    -- among the first hundred at most one is `k`
    have gen : ∀ (n : Nat) (m : List SeenPath), m.Nodup →
        ((m.take (n + 1)).filter (· ≠ k)).take n = (m.filter (· ≠ k)).take n := by
      intro n m
      induction m generalizing n with
      | nil => intro _; simp
      | cons a m ih =>
        intro hm
        obtain ⟨h1, h2⟩ := List.nodup_cons.1 hm
        rw [List.take_succ_cons, List.filter_cons, List.filter_cons]
        by_cases ha : a = k
        · subst ha
          have hall : ∀ (x : List SeenPath), (∀ y ∈ x, y ∈ m) → x.filter (· ≠ a) = x := by
            intro x hx
            apply List.filter_eq_self.2
            intro y hy
            have := hx y hy
            simp only [decide_eq_true_eq, ne_eq]
            rintro rfl
            exact h1 this
          rw [if_neg (by simp), if_neg (by simp), hall _ (fun y hy => List.mem_of_mem_take hy), hall _ (fun y hy => hy),
            List.take_take, Nat.min_self]
        · rw [if_pos (by simpa using ha), if_pos (by simpa using ha)]
          cases n with
          | zero => rfl
          | succ n =>
            rw [List.take_succ_cons, List.take_succ_cons, ih n h2]
    exact gen 99 _ (lastUses_nodup uses)
  · have h1 : (l.erase k).length ≤ l.length := List.length_erase_le
    have h2 : l.length ≤ cacheSize := by
      have := congrArg List.length h
      rw [List.length_reverse, List.length_take] at this
      omega
    rw [List.length_append]
    simp only [List.length_cons, List.length_nil]
    omega

theorem insert_eq (l : List SeenPath) (p : Path) : insert l p =
    (let l' := l.erase p.seen ++ [p.seen]
     if l'.length > cacheSize then l'.drop 1 else l') := by
  unfold insert
  cases h : l.idxOf? p.seen with
  | none => rw [List.erase_of_not_mem (idxOf?_none h)]
  | some i => simp only [idxOf?_spec h]

/-! ### Histories -/

/-- How the processing of a path ended, seen from outside: by what was sent for it and what came back. -/
inductive Ending where
  /-- nothing was sent -/
  | known
  /-- it was negotiated and the matter is settled: dropped, or uploaded -/
  | settled
  /-- it was negotiated and the matter is open -/
  | open
  deriving DecidableEq, Repr

def ending (s : Processor) (x : Path × Fate) : Ending :=
  if (s.process x).sent = s.sent then .known
  else match x.2 with
    | .drop => .settled
    | .upload true => .settled
    | _ => .open

/-- The paths that were settled, or known because they had been, most recent first. -/
def uses : Processor → List SeenPath → List (Path × Fate) → List SeenPath
  | _, u, [] => u
  | s, u, x :: l => uses (s.process x) (if ending s x = .open then u else ⟨x.1.sankey, x.1.pathId⟩ :: u) l

theorem process_spec (s : Processor) (u : List SeenPath) (x : Path × Fate)
    (h : s.seen.reverse = (lastUses u).take cacheSize) :
    (s.process x).seen.reverse = (lastUses (if ending s x = .open then u else x.1.seen :: u)).take cacheSize ∧
      (ending s x = .known ↔ x.1.seen ∈ s.seen) := by
  obtain ⟨p, f⟩ := x
  unfold ending
  cases hi : s.seen.idxOf? p.seen with
  | some i =>
    have hmem : p.seen ∈ s.seen := by
      apply Classical.byContradiction
      intro hn
      rw [List.idxOf?_eq_none_iff.2 hn] at hi
      cases hi
    have hp : s.process (p, f) = { s with seen := s.seen.erase p.seen ++ [p.seen] } := by
      unfold Processor.process contains
      dsimp only
      rw [hi]
      dsimp only
      rw [idxOf?_spec hi]
    rw [hp]
    refine ⟨?_, by simp [hmem]⟩
    have hle : (s.seen.erase p.seen ++ [p.seen]).length ≤ cacheSize := by
      have h1 := List.length_erase_of_mem hmem
      have h2 : s.seen.length ≤ cacheSize := by
        have := congrArg List.length h
        rw [List.length_reverse, List.length_take] at this
        omega
      have h3 : 0 < s.seen.length := List.length_pos_of_mem hmem
      simp only [List.length_append, List.length_cons, List.length_nil]
      omega
    have ht := touch (k := p.seen) h
    dsimp only at ht
    rw [if_neg (by omega)] at ht
    simpa using ht
  | none =>
    have hmem := idxOf?_none hi
    have hp : s.process (p, f) = Processor.decide ⟨s.seen, s.sent ++ [.intent p.sankey p.pathId]⟩ p f := by
      unfold Processor.process contains
      dsimp only
      rw [hi]
    have hlong : ∀ m : List SankeyMsg, s.sent ++ [.intent p.sankey p.pathId] ++ m ≠ s.sent := by
      intro m he
      have := congrArg List.length he
      simp at this
    have ht := touch (k := p.seen) h
    rw [← insert_eq] at ht
    rw [hp]
    cases f with
    | noAnswer =>
      have h1 := hlong []
      simp only [List.append_nil] at h1
      simp only [Processor.decide, h1, if_false]
      exact ⟨by simpa using h, by simp [hmem]⟩
    | drop =>
      have h1 := hlong []
      simp only [List.append_nil] at h1
      simp only [Processor.decide, h1, if_false]
      exact ⟨by simpa using ht, by simp [hmem]⟩
    | upload ok =>
      have h1 := hlong [.upload p.sankey p.pathId p.nodes]
      simp only [Processor.decide, Processor.upload, h1, if_false]
      cases ok with
      | true => exact ⟨by simpa using ht, by simp [hmem]⟩
      | false => exact ⟨by simpa using h, by simp [hmem]⟩

theorem run_spec : ∀ (l : List (Path × Fate)) (s : Processor) (u : List SeenPath),
    s.seen.reverse = (lastUses u).take cacheSize → (s.run l).seen.reverse = (lastUses (uses s u l)).take cacheSize
  | [], _, _, h => h
  | x :: l, s, u, h => run_spec l (s.process x) _ (process_spec s u x h).1

/-- C40.  When is a path reported again?  Let `u` be the paths that were settled (uploaded, or dropped by the server) or
recognised so far, most recent first.  Nothing is sent for a path exactly if it is among the hundred different paths used
last. -/
theorem C40_reported_once (l : List (Path × Fate)) (x : Path × Fate) :
    (({} : Processor).run (l ++ [x])).sent = (({} : Processor).run l).sent ↔
      ⟨x.1.sankey, x.1.pathId⟩ ∈ (lastUses (uses {} [] l)).take 100 := by
  have h := run_spec l {} [] (by simp [lastUses])
  have h2 := (process_spec _ _ x h).2
  have hr : (({} : Processor).run (l ++ [x])) = (({} : Processor).run l).process x := by
    simp [Processor.run, List.foldl_append]
  rw [hr]
  show _ ↔ x.1.seen ∈ (lastUses (uses {} [] l)).take cacheSize
  rw [← h, List.mem_reverse, ← h2]
  unfold ending
  constructor
  · intro he; rw [if_pos he]
  · intro he
    split at he
    · assumption
    · split at he <;> cases he

/-- C40.  The memory for settled paths is bounded. -/
theorem C40_cache_bounded (l : List (Path × Fate)) : (({} : Processor).run l).seen.length ≤ 100 := by
  have := congrArg List.length (run_spec l {} [] (by simp [lastUses]))
  rw [List.length_reverse, List.length_take] at this
  unfold cacheSize at this
  omega

/-- C40.  What is sent for a path: nothing, or the question whether to upload it; and after the answer that it should be
uploaded, and only then, the path with its own identifiers and nodes. -/
theorem C40_sent (s : Processor) (p : Path) (f : Fate) :
    (s.process (p, f)).sent = s.sent ∨ (s.process (p, f)).sent = s.sent ++ [.intent p.sankey p.pathId] ∧ (∀ ok, f ≠ .upload ok) ∨
      (s.process (p, f)).sent = s.sent ++ [.intent p.sankey p.pathId, .upload p.sankey p.pathId p.nodes] ∧
        ∃ ok, f = .upload ok := by
  unfold Processor.process
  split
  · exact .inl rfl
  · cases f with
    | noAnswer => exact .inr (.inl ⟨rfl, by simp⟩)
    | drop => exact .inr (.inl ⟨rfl, by simp⟩)
    | upload ok => exact .inr (.inr ⟨by simp [Processor.decide, Processor.upload], ok, rfl⟩)

namespace Ex
def pathA : Path := ⟨"d", ["a"], "a", false⟩
def pathB : Path := ⟨"d", ["b"], "b", false⟩
end Ex

/-- A path is uploaded, one is refused an answer and asked about again, and the first is not reported again. -/
example : (({} : Processor).run [(Ex.pathA, .upload true), (Ex.pathB, .noAnswer), (Ex.pathB, .drop), (Ex.pathA, .upload true),
    (Ex.pathB, .upload true)]).sent =
    [.intent "d" "a", .upload "d" "a" ["a"], .intent "d" "b", .intent "d" "b"] := by decide +kernel

/-- Because identifiers do not tell them apart (`C40_identifier_violated`), a path is never uploaded when a different one
with the same characters was. -/
theorem C40_collision_violated :
    let p := Path.new "d" ⟨[⟨"a", true⟩, ⟨"bc", true⟩], false⟩
    let q := Path.new "d" ⟨[⟨"ab", true⟩, ⟨"c", true⟩], false⟩
    (({} : Processor).run [(p, .upload true), (q, .upload true)]).sent =
      [.intent "d" "abc", .upload "d" "abc" ["a", "bc"]] := by decide +kernel

end Verif.Wf
