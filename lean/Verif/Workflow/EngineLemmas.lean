import Verif.Workflow.Engine
import Verif.Workflow.WfLemmas

/-! Invariants of the engine: what holds of each workflow with its configuration, over all histories. -/
namespace Verif.Wf

/-- A relation between the workflows and the configurations at the same positions. -/
def Paired (P : Workflow → Config → Prop) : List Workflow → List Config → Prop
  | [], [] => True
  | w :: ws, c :: cs => P w c ∧ Paired P ws cs
  | _, _ => False

theorem Paired.append {P : Workflow → Config → Prop} : ∀ {ws : List Workflow} {cs : List Config} {w : Workflow}
    {c : Config}, Paired P ws cs → P w c → Paired P (ws ++ [w]) (cs ++ [c])
  | [], [], _, _, _, h => ⟨h, trivial⟩
  | _ :: _, _ :: _, _, _, ⟨h1, h2⟩, h => ⟨h1, Paired.append h2 h⟩

theorem Paired.filter {P : Workflow → Config → Prop} (keep : Workflow × Config → Bool) :
    ∀ {ws : List Workflow} {cs : List Config}, Paired P ws cs →
      Paired P (((ws.zip cs).filter keep).map (·.1)) (((ws.zip cs).filter keep).map (·.2))
  | [], [], _ => trivial
  | w :: ws, c :: cs, ⟨h1, h2⟩ => by
    have ih := Paired.filter keep h2
    simp only [List.zip_cons_cons, List.filter_cons]
    split
    · exact ⟨h1, ih⟩
    · exact ih

theorem Paired.mono {P Q : Workflow → Config → Prop} (h : ∀ w c, P w c → Q w c) :
    ∀ {ws : List Workflow} {cs : List Config}, Paired P ws cs → Paired Q ws cs
  | [], [], _ => trivial
  | _ :: _, _ :: _, ⟨h1, h2⟩ => ⟨h _ _ h1, Paired.mono h h2⟩

theorem Paired.map {P Q : Workflow → Config → Prop} (f : Workflow → Workflow) (h : ∀ w c, P w c → Q (f w) c) :
    ∀ {ws : List Workflow} {cs : List Config}, Paired P ws cs → Paired Q (ws.map f) cs
  | [], [], _ => trivial
  | _ :: _, _ :: _, ⟨h1, h2⟩ => ⟨h _ _ h1, Paired.map f h h2⟩

theorem Paired.mem {P : Workflow → Config → Prop} : ∀ {ws : List Workflow} {cs : List Config}, Paired P ws cs →
    ∀ w ∈ ws, ∃ c ∈ cs, P w c
  | _ :: _, _ :: _, ⟨h1, h2⟩, w, hw => by
    rcases List.mem_cons.1 hw with rfl | hw
    · exact ⟨_, List.mem_cons_self, h1⟩
    · obtain ⟨c, hc, h⟩ := Paired.mem h2 w hw
      exact ⟨c, List.mem_cons_of_mem _ hc, h⟩

theorem Paired.zip {P : Workflow → Config → Prop} : ∀ {ws : List Workflow} {cs : List Config}, Paired P ws cs →
    ∀ x ∈ ws.zip cs, P x.1 x.2
  | _ :: _, _ :: _, ⟨h1, h2⟩, x, hx => by
    rcases List.mem_cons.1 hx with rfl | hx
    · exact h1
    · exact Paired.zip h2 x hx

theorem Paired.length {P : Workflow → Config → Prop} : ∀ {ws : List Workflow} {cs : List Config}, Paired P ws cs →
    ws.length = cs.length
  | [], [], _ => rfl
  | _ :: _, _ :: _, ⟨_, h2⟩ => by simp [Paired.length h2]

theorem Paired.get {P : Workflow → Config → Prop} : ∀ {ws : List Workflow} {cs : List Config}, Paired P ws cs →
    ∀ (i : Nat) (w : Workflow) (c : Config), ws[i]? = some w → cs[i]? = some c → P w c
  | _ :: _, _ :: _, ⟨h1, _⟩, 0, w, c, hw, hc => by
    simp only [List.getElem?_cons_zero, Option.some.injEq] at hw hc
    rw [← hw, ← hc]
    exact h1
  | _ :: _, _ :: _, ⟨_, h2⟩, i + 1, w, c, hw, hc => Paired.get h2 i w c (by simpa using hw) (by simpa using hc)

/-- The configurations a step brings. -/
def Op.configs : Op → List Config
  | .start _ _ _ ec => ec.configs
  | .update ec => ec.configs
  | _ => []

/-- A property of the runs of a workflow, and one of what is stored, that every step keeps. -/
structure Keeps (cs : List Config) (P : Config → List Run → Prop) (D : Workflow → Prop) : Prop where
  empty : ∀ c ∈ cs, P c []
  step : ∀ c ∈ cs, ∀ limit log count runs, P c runs → P c (processRuns c limit log count runs).done
  save : ∀ c ∈ cs, ∀ runs, P c runs → D ⟨c.id, runs.filter (!·.initial)⟩
  load : ∀ c ∈ cs, ∀ runs k, D ⟨c.id, runs⟩ → P c (runs.take k)

def Good (cs : List Config) (P : Config → List Run → Prop) (D : Workflow → Prop) (e : Engine) : Prop :=
  Paired (fun w c => w.id = c.id ∧ c ∈ cs ∧ P c w.runs) e.workflows e.configs ∧
    ∀ s, e.disk = some s → ∀ w ∈ s.workflows, D w

theorem dropRuns_prefix (limit count : Nat) : ∀ (n : Nat) (l : List Run), ∃ k, dropRuns limit count n l = l.take k
  | 0, l => ⟨l.length, by simp [dropRuns]⟩
  | n + 1, [] => ⟨0, by simp [dropRuns]⟩
  | n + 1, r :: l => by
    unfold dropRuns
    split
    · rename_i h; cases h
    · split
      · exact ⟨l.length, by simp [List.dropLast_eq_take]⟩
      · obtain ⟨k, hk⟩ := dropRuns_prefix limit count n (r :: l).dropLast
        refine ⟨min k l.length, ?_⟩
        rw [hk, List.dropLast_eq_take, List.take_take]
        rfl

theorem findWorkflow_mem {id : String} : ∀ {l : List Workflow} {w : Workflow}, findWorkflow id l = some w →
    w ∈ l ∧ w.id = id
  | x :: l, w, h => by
    unfold findWorkflow at h
    split at h
    · rename_i y hy
      cases h
      obtain ⟨h1, h2⟩ := findWorkflow_mem hy
      exact ⟨List.mem_cons_of_mem _ h1, h2⟩
    · split at h
      · rename_i hx
        cases h
        exact ⟨List.mem_cons_self, hx⟩
      · cases h

variable {cs : List Config} {P : Config → List Run → Prop} {D : Workflow → Prop}

theorem addWorkflow_disk (e : Engine) (w : Workflow) (c : Config) : (e.addWorkflow w c).disk = e.disk := rfl

theorem Good.addWorkflow {e : Engine} {w : Workflow} {c : Config} (h : Good cs P D e) (hid : w.id = c.id) (hc : c ∈ cs)
    (hp : ∀ k, P c (w.runs.take k)) : Good cs P D (e.addWorkflow w c) := by
  refine ⟨Paired.append h.1 ⟨hid, hc, ?_⟩, h.2⟩
  dsimp only
  split
  · obtain ⟨k, hk⟩ := dropRuns_prefix e.limit e.count w.runs.length w.runs
    rw [hk]
    exact hp k
  · have := hp w.runs.length
    rwa [List.take_length] at this

theorem Good.addWorkflows (hk : Keeps cs P D) : ∀ (l : List Config) (saved : List Workflow) (e : Engine), Good cs P D e →
    (∀ w ∈ saved, D w) → (∀ c ∈ l, c ∈ cs) → Good cs P D (e.addWorkflows saved l)
  | [], _, _, h, _, _ => h
  | c :: l, saved, e, h, hs, hl => by
    have hc := hl c List.mem_cons_self
    have hl' : ∀ c ∈ l, c ∈ cs := fun x hx => hl x (List.mem_cons_of_mem _ hx)
    unfold Engine.addWorkflows
    split
    · rename_i w hw
      obtain ⟨h1, h2⟩ := findWorkflow_mem hw
      refine Good.addWorkflows hk l _ _ (Good.addWorkflow h h2 hc fun k => ?_) ?_ hl'
      · have hd := hs w h1
        obtain ⟨i, rs⟩ := w
        dsimp only at h2
        subst h2
        exact hk.load c hc rs k hd
      · intro x hx
        exact hs x (List.mem_filter.1 hx).1
    · refine Good.addWorkflows hk l _ _ (Good.addWorkflow h rfl hc fun k => ?_) hs hl'
      rw [List.take_nil]
      exact hk.empty c hc

theorem Good.start {e : Engine} (hk : Keeps cs P D) (h : Good cs P D e) (limit : Nat) (readable : Bool)
    (oks : List Bool) (ec : EngineCfg) (hc : ∀ c ∈ ec.configs, c ∈ cs) :
    Good cs P D (e.start limit readable oks ec) := by
  unfold Engine.start
  have hd : ∀ s, (if readable then e.disk else none) = some s → ∀ w ∈ s.workflows, D w := by
    intro s hs
    split at hs
    · exact h.2 s hs
    · cases hs
  dsimp only
  split
  · rename_i s hs
    have := Good.addWorkflows hk ec.configs s.workflows
      { limit := limit, triggers := ec.triggers, conts := ec.conts, disk := if readable then e.disk else none,
        pending := stdPending ec.triggers s.pending, streams := stdStreams ec.triggers ec.conts s.streams,
        session := s.session } ⟨trivial, hd⟩ (hd s hs) hc
    exact this
  · exact Good.addWorkflows hk ec.configs [] _ ⟨trivial, hd⟩ (by intro w hw; cases hw) hc

theorem Good.fold (hk : Keeps cs P D) : ∀ (l : List Config) (e : Engine), Good cs P D e → (∀ c ∈ l, c ∈ cs) →
    Good cs P D (l.foldl (fun e c => e.addWorkflow { id := c.id } c) e)
  | [], _, h, _ => h
  | c :: l, e, h, hl => by
    refine Good.fold hk l _ (Good.addWorkflow h rfl (hl c List.mem_cons_self) fun k => ?_)
      fun x hx => hl x (List.mem_cons_of_mem _ hx)
    rw [List.take_nil]
    exact hk.empty c (hl c List.mem_cons_self)

theorem Good.update {e : Engine} (hk : Keeps cs P D) (h : Good cs P D e) (ec : EngineCfg)
    (hc : ∀ c ∈ ec.configs, c ∈ cs) : Good cs P D (e.update ec) := by
  unfold Engine.update Engine.updateWorkflows
  dsimp only
  refine Good.fold hk _ _ ⟨Paired.filter _ h.1, h.2⟩ ?_
  intro c hx
  exact hc c (List.mem_filter.1 hx).1

theorem processAll_paired (hk : Keeps cs P D) (limit : Nat) (log : Log) : ∀ (ws : List Workflow) (l : List Config)
    (count : Nat), Paired (fun w c => w.id = c.id ∧ c ∈ cs ∧ P c w.runs) ws l →
      Paired (fun w c => w.id = c.id ∧ c ∈ cs ∧ P c w.runs) (processAll limit log count (ws.zip l)).1 l
  | [], [], _, _ => trivial
  | w :: ws, c :: l, count, ⟨⟨h1, h2, h3⟩, h4⟩ => by
    simp only [List.zip_cons_cons]
    unfold processAll
    dsimp only
    exact ⟨⟨h1, h2, hk.step c h2 limit log count w.runs h3⟩, processAll_paired hk limit log ws l _ h4⟩

theorem Good.enter {e : Engine} (hk : Keeps cs P D) (h : Good cs P D e) (session : String) :
    Good cs P D (e.enter session) := by
  unfold Engine.enter
  split
  · exact h
  · split
    · refine ⟨Paired.map _ ?_ h.1, h.2⟩
      intro w c hw
      exact ⟨hw.1, hw.2.1, hk.empty c hw.2.1⟩
    · exact h

theorem Good.handle {e : Engine} (hk : Keeps cs P D) (h : Good cs P D e) (log : Log) (dests : List String)
    (v : LogEnv) : Good cs P D (e.handle log dests v).1 := by
  unfold Engine.handle
  split
  · exact h
  · exact ⟨processAll_paired hk e.limit log e.workflows e.configs e.count h.1, h.2⟩

theorem Good.persist {e : Engine} (hk : Keeps cs P D) (h : Good cs P D e) (due : Bool) (out : Out) :
    Good cs P D (e.persist due out) := by
  unfold Engine.persist
  split
  · refine ⟨h.1, ?_⟩
    dsimp only
    split
    · intro s hs w hw
      cases hs
      obtain ⟨hw1, _⟩ := List.mem_filter.1 hw
      obtain ⟨x, hx, rfl⟩ := List.mem_map.1 hw1
      obtain ⟨c, _, h1, h2, h3⟩ := Paired.mem h.1 x hx
      have := hk.save c h2 x.runs h3
      unfold Workflow.optimized
      obtain ⟨i, rs⟩ := x
      dsimp only at h1
      subst h1
      exact this
    · exact h.2
    · intro s hs; cases hs
  · exact h

theorem Good.approved {e : Engine} (h : Good cs P D e) (p : Pending) (ok : Bool) : Good cs P D (e.approved p ok) := by
  unfold Engine.approved
  dsimp only
  split
  · split
    · exact h
    · exact h
  · exact h

theorem Good.apply {e : Engine} (hk : Keeps cs P D) (h : Good cs P D e) (op : Op) (hc : ∀ c ∈ op.configs, c ∈ cs) :
    Good cs P D (e.apply op) := by
  cases op with
  | start limit readable oks ec => exact h.start hk limit readable oks ec hc
  | update ec => exact h.update hk ec hc
  | log l dests v => exact (h.enter hk l.session).handle hk l dests v
  | approved p ok => exact h.approved p ok
  | rejected p => exact h
  | flushed id => exact h
  | persist due out => exact h.persist hk due out

theorem Good.run (hk : Keeps cs P D) : ∀ (ops : List Op) {e : Engine}, Good cs P D e →
    (∀ op ∈ ops, ∀ c ∈ op.configs, c ∈ cs) → Good cs P D (e.run ops)
  | [], _, h, _ => h
  | op :: ops, e, h, hc => by
    unfold Engine.run
    simp only [List.foldl_cons]
    exact Good.run hk ops (h.apply hk op (hc op List.mem_cons_self)) fun x hx => hc x (List.mem_cons_of_mem _ hx)

theorem Good.init : Good cs P D {} := ⟨trivial, by intro s hs; cases hs⟩

/-- All configurations of a history. -/
def histConfigs (ops : List Op) : List Config := (ops.map (·.configs)).flatten

theorem mem_histConfigs {ops : List Op} : ∀ op ∈ ops, ∀ c ∈ op.configs, c ∈ histConfigs ops := by
  intro op hop c hc
  exact List.mem_flatten.2 ⟨_, List.mem_map.2 ⟨op, hop, rfl⟩, hc⟩

end Verif.Wf
